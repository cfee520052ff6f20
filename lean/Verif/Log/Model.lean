/-!
# Model of the log: `src/np_log.c`

The default build: without `CONSOLE_LOG`.  The text in front of a message (time, thread, function, id, level) is given with it.  The answers of
the operating system to `write` are a list of numbers; after its end every call fails.
-/
namespace Np.Log

/-! ## Which messages are logged -/

/-- include/neuropil_log.h:15-60.  `LOG_GLOBAL` makes the type of the enumeration 64 bits wide. -/
abbrev Level := BitVec 64
def error : Level := 0x1
def warning : Level := 0x2
def info : Level := 0x4
def debug : Level := 0x8
def trace : Level := 0x10
def verbose : Level := 0x20
def network : Level := 0x800
def routing : Level := 0x1000
def global : Level := 0x800000000
def modulMask : Level := 0xFFFFFFF00
def levelMask : Level := 0xFF

/-- The selected levels and modules: `uint32_t log_level` in `struct np_settings`, include/neuropil.h:198, and in the logger, src/np_log.c:48. -/
abbrev Selection := BitVec 32

/-- `_np_log_init` and `np_log_setlevel`, src/np_log.c:523-525, 539: the value given is cut to 32 bits. -/
def select (l : Level) : Selection := l.truncate 32

/-- The condition in `np_log_message`, src/np_log.c:350-357. -/
def accepts (s : Selection) (level : Level) : Bool :=
  let sel : Level := s.zeroExtend 64
  (decide (0 < (level &&& levelMask &&& sel).toNat) && decide ((level &&& verbose).toNat ≤ (verbose &&& sel).toNat) &&
    (decide (0 < (level &&& modulMask &&& sel).toNat) || (sel &&& modulMask &&& global) == global || (level &&& modulMask) == 0)) ||
  (level &&& error) == error || (level &&& warning) == warning

/-! ## The level in words -/

/-- `_np_log_to_str`, src/np_log.c:71-108, with a buffer of 20 bytes: the lengths of the words written.  `strncpy` writes `19 - used` bytes;
if the word does not fit with its end, `strnlen` reads over the end of the word, and later copies get a wrong size.  `none`: this case. -/
def wordsLen : List (Bool × Nat) → Nat → Option Nat
  | [], used => some used
  | (false, _) :: r, used => wordsLen r used
  | (true, n) :: r, used => if used + n < 19 then wordsLen r (used + n) else none

/-- The words ERROR, WARN, INFO, DEBUG, TRACE with a blank each. -/
def levelText (level : Level) : Option Nat :=
  wordsLen [((level &&& error) == error, 6), ((level &&& warning) == warning, 5), ((level &&& info) == info, 5),
    ((level &&& debug) == debug, 6), ((level &&& trace) == trace, 6)] 0

/-! ## Entries -/

/-- `struct np_log_entry`, include/neuropil.h:160-165.  `string` is `none` if the pointer was never set. -/
structure Entry where
  string : Option (List Char)
  length : Nat
  deriving DecidableEq

/-- The ways in which logging ends the process. -/
inductive Fault
  /-- `assert(new_log_entry->string_length > 0)`, src/np_log.c:368. -/
  | emptyMessage
  /-- The level does not fit in its buffer. -/
  | levelOverflow
  /-- A pointer which was never set is passed to the function of the application and to `free`. -/
  | wildPointer
  /-- The logger was freed. -/
  | freedLogger
  deriving DecidableEq

/-- The creation of an entry, src/np_log.c:359-409.  `callback`: the application has set `log_write_fn`. -/
def newEntry (callback : Bool) (level : Level) (pre body : List Char) : Except Fault Entry :=
  if levelText level = none then .error .levelOverflow
  else if body = [] then .error .emptyMessage
  else if callback then .ok { string := none, length := body.length }
  else .ok { string := some (pre ++ ' ' :: body ++ ['\n']), length := (pre ++ ' ' :: body ++ ['\n']).length }

/-! ## Writing -/

/-- `MISC_LOG_FLUSH_AFTER_X_ITEMS`, `LOG_ROTATE_COUNT`, `LOG_ROTATE_AFTER_BYTES`, include/np_settings.h:181-189. -/
def flushAfter : Nat := 31
def rotateCount : Nat := 3
def rotateAfter : Nat := 10000000

/-- The loop in `__np_log_write`, src/np_log.c:441-466, for the log file: the bytes written, whether all are, the answers left. -/
def writeLoop : List Int → List Char → List Char → List Char × Bool × List Int
  | [], rem, acc => (acc, decide (rem = []), [])
  | a :: r, rem, acc =>
    if rem = [] then (acc, true, a :: r)
    else if a < 0 then (acc, false, r)
    else writeLoop r (rem.drop a.toNat) (acc ++ rem.take a.toNat)

/-- The logger, src/np_log.c:40-55, and the contents of the log files, by the number in their names.  `cur` is the open one.  `callback`:
`log_write_fn` is set.  `rotating`: `log_rotate`.  `all` is a ghost: everything that was ever written. -/
structure Logger where
  level : Selection
  callback : Bool
  rotating : Bool
  queue : List Entry
  size : Nat
  count : Nat
  cur : Nat
  files : Nat → List Char
  all : List Char

/-- The text of an entry that has one. -/
def Entry.text (e : Entry) : List Char := e.string.getD []

/-- Bytes arrive in the open file. -/
def Logger.put (l : Logger) (bs : List Char) : Logger :=
  { l with files := fun i => if i = l.cur then l.files i ++ bs else l.files i, all := l.all ++ bs }

/-- The loop in `_np_log_fflush`, src/np_log.c:490-520, with the entries it has still to take.  An entry that could not be written is put back
in front, 462-469. -/
def flushLoop : Nat → Logger → List Int → Except Fault (Logger × List Int)
  | 0, l, ans => .ok (l, ans)
  | k + 1, l, ans =>
    match l.queue with
    | [] => .ok (l, ans)
    | e :: r =>
      if l.callback ∧ e.string = none then .error .wildPointer
      else
        let w := writeLoop ans e.text []
        flushLoop k ({ l with queue := if w.2.1 then r else e :: r, size := l.size + e.length }.put w.1) w.2.2

/-- `_np_log_fflush`, src/np_log.c:474-521: up to 32 entries, if forced or if there are more than 31. -/
def Logger.flush (l : Logger) (force : Bool) (ans : List Int) : Except Fault (Logger × List Int) :=
  if force = true ∨ flushAfter < l.queue.length then flushLoop (flushAfter + 1) l ans else .ok (l, ans)

/-- `np_log_message`, src/np_log.c:328-439. -/
def Logger.message (l : Logger) (level : Level) (pre body : List Char) (ans : List Int) : Except Fault (Logger × List Int) :=
  if accepts l.level level then
    match newEntry l.callback level pre body with
    | .error f => .error f
    | .ok e =>
      if (level &&& error) == error then { l with queue := l.queue ++ [e] }.flush true ans
      else .ok ({ l with queue := l.queue ++ [e] }, ans)
  else .ok (l, ans)

/-- `_np_log_rotation`, src/np_log.c:254-326: the next file, emptied.  `log_count` is a `uint32_t`. -/
def Logger.rotate (l : Logger) (opens : Bool) : Except Fault Logger :=
  if opens then
    let slot := if l.rotating then l.count % rotateCount else 0
    .ok { l with count := (l.count + 1) % 2 ^ 32, cur := slot, size := 0, files := fun i => if i = slot then [] else l.files i }
  else .error .freedLogger

/-- `_np_log_evrotate`, src/np_log.c:225-241. -/
def Logger.tick (l : Logger) (opens : Bool) (ans : List Int) : Except Fault (Logger × List Int) :=
  if rotateAfter ≤ l.size then
    match l.rotate opens with
    | .error f => .error f
    | .ok l' => l'.flush true ans
  else .ok (l, ans)

/-- `_np_log_init`, src/np_log.c:527-571.  `enabled`: `LOG_ROTATE_ENABLE`, include/np_settings.h:190-196. -/
def Logger.init (level : Level) (callback enabled : Bool) (files : Nat → List Char) : Logger :=
  { level := select level
    callback := callback
    rotating := enabled && !callback
    queue := []
    size := 0
    count := 1
    cur := 0
    files := fun i => if i = 0 then [] else files i
    all := [] }

/-- `_np_log_destroy`, src/np_log.c:573-595: one flush, the remaining entries are freed. -/
def Logger.destroy (l : Logger) (ans : List Int) : Except Fault (Logger × List Int) :=
  match l.flush true ans with
  | .error f => .error f
  | .ok p => .ok ({ p.1 with queue := [] }, p.2)

inductive Op
  | message (level : Level) (pre body : List Char) (ans : List Int)
  | flush (force : Bool) (ans : List Int)
  | tick (opens : Bool) (ans : List Int)

def Logger.step (l : Logger) : Op → Except Fault (Logger × List Int)
  | .message level pre body ans => l.message level pre body ans
  | .flush force ans => l.flush force ans
  | .tick opens ans => l.tick opens ans

def Logger.run (l : Logger) : List Op → Except Fault Logger
  | [] => .ok l
  | o :: r =>
    match l.step o with
    | .error f => .error f
    | .ok p => p.1.run r

/-! ## Several threads

An entry is taken from the list under the lock, and written after the lock was given back (src/np_log.c:491-515). -/

/-- Entries still in the list, in the hands of threads, and written. -/
structure Shared (α : Type) where
  queue : List α
  held : List (Nat × α)
  out : List α

inductive Move (α : Type)
  | log (e : α)
  | take (thread : Nat)
  | write (thread : Nat)
  | putBack (thread : Nat)

/-- The first entry held by a thread, and the entries without it. -/
def release {α : Type} (t : Nat) : List (Nat × α) → Option (α × List (Nat × α))
  | [] => none
  | (u, e) :: r => if u = t then some (e, r) else (release t r).map fun p => (p.1, (u, e) :: p.2)

/-- src/np_log.c:416-422 (log), 491-511 (take), 452-458 and 470-473 (write), 461-468 (put back). -/
def Shared.step {α : Type} (s : Shared α) : Move α → Shared α
  | .log e => { s with queue := s.queue ++ [e] }
  | .take t =>
    match s.queue with
    | [] => s
    | e :: r => if (release t s.held).isSome then s else { s with queue := r, held := (t, e) :: s.held }
  | .write t =>
    match release t s.held with
    | none => s
    | some p => { s with held := p.2, out := s.out ++ [p.1] }
  | .putBack t =>
    match release t s.held with
    | none => s
    | some p => { s with held := p.2, queue := p.1 :: s.queue }

def Shared.run {α : Type} (s : Shared α) : List (Move α) → Shared α
  | [] => s
  | m :: r => (s.step m).run r

/-! ## File names -/

/-- `strrchr(filename, '.')`: what is in front of the last dot, and the rest with the dot. -/
def splitLast : List Char → Option (List Char × List Char)
  | [] => none
  | c :: r =>
    match splitLast r with
    | some p => some (c :: p.1, p.2)
    | none => if c = '.' then some ([], c :: r) else none

/-- The names of the log files, src/np_log.c:284-298, 546-558, for a name that `realpath` leaves as it is.  `none`: without a dot the code
computes the distance of the null pointer to the name, which is undefined.  The extension is cut to 14 characters. -/
def fileName (name : List Char) (rotating : Bool) (id : Nat) : Option (List Char) :=
  match splitLast name with
  | none => none
  | some p => some (p.1 ++ (if rotating then '_' :: '0' :: (Nat.toDigits 10 id) else []) ++ p.2.take 14)

end Np.Log

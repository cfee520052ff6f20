/-!
# Model of the intrusive lists, include/util/np_list.h

The lists are modelled at the level of pointers: a memory of nodes addressed by numbers (`calloc` hands out a fresh
address, `free` removes the node), `first`/`last` pointers and a `size` field. Reading or writing a node that is not allocated
(NULL was excluded by the code, so: freed memory) is undefined behaviour and is modelled by the result `none`.
Simplifications: `calloc` never fails and never hands out an address again (so every use after free is caught);
`size` is a natural number instead of `uint32_t`; loops get as fuel the number of allocations so far, running out of fuel is `none` too.
-/
namespace Np.Lists

abbrev Ptr := Option Nat

/-! ## Double linked nodes (DLL and PLL) -/

/-- `TYPE##_dll_node_s` / `TYPE##_pll_node_s`, include/util/np_list.h:129-133, 398-402. -/
structure DNode (α : Type) where
  flink : Ptr
  blink : Ptr
  val : α
deriving Repr, DecidableEq

/-- `TYPE##_dll_s` / `TYPE##_pll_s` (lines 124-128, 393-397) together with the memory holding its nodes. -/
structure DList (α : Type) where
  mem : Nat → Option (DNode α)
  next : Nat
  size : Nat
  first : Ptr
  last : Ptr

variable {α : Type}

def upd (m : Nat → Option β) (i : Nat) (v : Option β) : Nat → Option β := fun j => if j = i then v else m j

namespace DList

/-- `TYPE##_dll_init`, lines 419-425; `TYPE##_pll_init`, lines 159-165. -/
def init : DList α := ⟨fun _ => none, 0, 0, none, none⟩

/-- `calloc` of a node and the assignment of its three fields. -/
def alloc (l : DList α) (v : α) : Nat × DList α :=
  (l.next, { l with mem := upd l.mem l.next (some ⟨none, none, v⟩), next := l.next + 1 })

def setFlink (l : DList α) (p : Nat) (v : Ptr) : Option (DList α) :=
  (l.mem p).map fun n => { l with mem := upd l.mem p (some { n with flink := v }) }
def setBlink (l : DList α) (p : Nat) (v : Ptr) : Option (DList α) :=
  (l.mem p).map fun n => { l with mem := upd l.mem p (some { n with blink := v }) }
def setVal (l : DList α) (p : Nat) (v : α) : Option (DList α) :=
  (l.mem p).map fun n => { l with mem := upd l.mem p (some { n with val := v }) }
def free (l : DList α) (p : Nat) : Option (DList α) :=
  (l.mem p).map fun _ => { l with mem := upd l.mem p none }

/-- `TYPE##_dll_append`, lines 426-441. -/
def append (l : DList α) (v : α) : Option (DList α) := do
  let (n, l) := l.alloc v
  let l ← match l.last with
    | some last => do
      let l ← l.setFlink last (some n)
      let l ← l.setBlink n (some last)
      pure { l with last := some n }
    | none => pure { l with first := some n, last := some n }
  pure { l with size := l.size + 1 }

/-- `TYPE##_dll_prepend`, lines 442-457. -/
def prepend (l : DList α) (v : α) : Option (DList α) := do
  let (n, l) := l.alloc v
  let l ← match l.first with
    | some first => do
      let l ← l.setBlink first (some n)
      let l ← l.setFlink n (some first)
      pure { l with first := some n }
    | none => pure { l with first := some n, last := some n }
  pure { l with size := l.size + 1 }

/-- `TYPE##_dll_head`, lines 458-470; `TYPE##_pll_head`, lines 265-278. The result 0 for an empty list is `none` here. -/
def head (l : DList α) : Option (DList α × Option α) :=
  match l.first with
  | none => some (l, none)
  | some tmp => do
    let n ← l.mem tmp
    let l := { l with first := n.flink }
    let l ← match l.first with
      | some f => l.setBlink f none
      | none => pure { l with last := none }
    let l ← l.free tmp
    pure ({ l with size := l.size - 1 }, some n.val)

/-- `TYPE##_dll_tail`, lines 471-483; `TYPE##_pll_tail`, lines 279-292. -/
def tail (l : DList α) : Option (DList α × Option α) :=
  match l.last with
  | none => some (l, none)
  | some tmp => do
    let n ← l.mem tmp
    let l := { l with last := n.blink }
    let l ← match l.last with
      | some f => l.setFlink f none
      | none => pure { l with first := none }
    let l ← l.free tmp
    pure ({ l with size := l.size - 1 }, some n.val)

/-- The loop of `TYPE##_dll_clear` / `TYPE##_pll_clear`. -/
def clearLoop : Nat → DList α → Option (DList α)
  | 0, _ => none
  | k + 1, l =>
    match l.first with
    | none => some l
    | some tmp => do
      let n ← l.mem tmp
      let l ← { l with first := n.flink }.free tmp
      clearLoop k l

/-- `TYPE##_dll_clear`, lines 493-503; `TYPE##_pll_clear`, lines 298-310. (The macro `dll_clear`, line 342, calls `dll_free` instead; it
is used nowhere in the library.) -/
def clear (l : DList α) : Option (DList α) := do
  let l ← clearLoop (l.next + 1) l
  pure { l with first := none, last := none, size := 0 }

/-- `TYPE##_dll_delete`, lines 504-514; `TYPE##_pll_delete`, lines 208-219. -/
def delete (l : DList α) (p : Nat) : Option (DList α) := do
  let n ← l.mem p
  let l ← match n.flink with
    | some f => l.setBlink f n.blink
    | none => pure l
  let n ← l.mem p
  let l ← match n.blink with
    | some b => l.setFlink b n.flink
    | none => pure l
  let n ← l.mem p
  let l := if l.first = some p then { l with first := n.flink } else l
  let l := if l.last = some p then { l with last := n.blink } else l
  let l ← l.free p
  pure { l with size := l.size - 1 }

/-- The search loop shared by `dll_remove` (lines 515-525), `pll_remove` (220-233), `pll_replace` (234-249): the first node, from `cur`,
whose value satisfies `q`. -/
def findLoop (l : DList α) (q : α → Bool) : Nat → Ptr → Option Ptr
  | 0, _ => none
  | _ + 1, none => some none
  | k + 1, some c => do
    let n ← l.mem c
    if q n.val then pure (some c) else findLoop l q k n.flink

/-- `TYPE##_dll_remove`, lines 515-525 (`q` is equality with the value); `TYPE##_pll_remove`, lines 220-233 (`q` is `cmp(·, value) == 0`). -/
def remove (l : DList α) (q : α → Bool) : Option (DList α) := do
  match ← findLoop l q (l.next + 1) l.first with
  | none => pure l
  | some p => delete l p

/-- `TYPE##_pll_replace`, lines 234-249. -/
def replace (l : DList α) (q : α → Bool) (v : α) : Option (DList α × Option α) := do
  match ← findLoop l q (l.next + 1) l.first with
  | none => pure (l, none)
  | some p => do
    let n ← l.mem p
    let l ← l.setVal p v
    pure (l, some n.val)

/-- `TYPE##_pll_find`, lines 250-264. -/
def pllFindLoop (l : DList α) (cmp : α → α → Int) (v : α) : Nat → Ptr → Option (Option α)
  | 0, _ => none
  | _ + 1, none => some none
  | k + 1, some c => do
    let n ← l.mem c
    if cmp n.val v = 0 then pure (some n.val)
    else if cmp n.val v = 1 then pure none
    else pllFindLoop l cmp v k n.flink

def pllFind (l : DList α) (cmp : α → α → Int) (v : α) : Option (Option α) := pllFindLoop l cmp v (l.next + 1) l.first

/-- The loop of `TYPE##_pll_insert`, lines 180-205; `n` is the new node. The Boolean is the value returned. -/
def insertLoop (cmp : α → α → Int) (dupsOk : Bool) (n : Nat) (v : α) : Nat → DList α → Ptr → Option (DList α × Bool)
  | 0, _, _ => none
  | _ + 1, l, none => some ({ l with size := l.size + 1 }, true)
  | k + 1, l, some c => do
    let cur ← l.mem c
    if cmp cur.val v < 0 then
      let l ← l.setFlink n (some c)
      let l ← match cur.blink with
        | some b => l.setFlink b (some n)
        | none => pure l
      let l ← l.setBlink n cur.blink
      let l ← l.setBlink c (some n)
      let l := if l.first = some c then { l with first := some n } else l
      pure ({ l with size := l.size + 1 }, true)
    else if cmp cur.val v = 0 ∧ dupsOk = false then
      let l ← l.free n
      pure (l, false)
    else if l.last = some c then
      let l ← l.setFlink c (some n)
      let l ← l.setBlink n (some c)
      pure ({ l with last := some n, size := l.size + 1 }, true)
    else insertLoop cmp dupsOk n v k l cur.flink

/-- `TYPE##_pll_insert`, lines 166-207. -/
def pllInsert (l : DList α) (cmp : α → α → Int) (dupsOk : Bool) (v : α) : Option (DList α × Bool) :=
  let (n, l1) := l.alloc v
  match l1.first with
  | none => some ({ l1 with first := some n, last := some n, size := l1.size + 1 }, true)
  | some f => insertLoop cmp dupsOk n v (l.next + 1) l1 (some f)

end DList

/-! ## Single linked nodes (SLL) -/

/-- `TYPE##_sll_node_s`. -/
structure SNode (α : Type) where
  flink : Ptr
  val : α
deriving Repr, DecidableEq

structure SList (α : Type) where
  mem : Nat → Option (SNode α)
  next : Nat
  size : Nat
  first : Ptr
  last : Ptr

namespace SList

/-- `TYPE##_sll_init`, lines 746-752. -/
def init : SList α := ⟨fun _ => none, 0, 0, none, none⟩

def alloc (l : SList α) (v : α) (f : Ptr) : Nat × SList α :=
  (l.next, { l with mem := upd l.mem l.next (some ⟨f, v⟩), next := l.next + 1 })

def setFlink (l : SList α) (p : Nat) (v : Ptr) : Option (SList α) :=
  (l.mem p).map fun n => { l with mem := upd l.mem p (some { n with flink := v }) }
def free (l : SList α) (p : Nat) : Option (SList α) :=
  (l.mem p).map fun _ => { l with mem := upd l.mem p none }

/-- `TYPE##_sll_append`, lines 768-782. -/
def append (l : SList α) (v : α) : Option (SList α) := do
  let (n, l) := l.alloc v none
  let l ← match l.first with
    | none => pure { l with first := some n }
    | some _ => match l.last with
      | some last => l.setFlink last (some n)
      | none => none          -- `NULL->flink = …`
  pure { l with last := some n, size := l.size + 1 }

/-- `TYPE##_sll_prepend`, lines 783-794. -/
def prepend (l : SList α) (v : α) : Option (SList α) := do
  let (n, l) := l.alloc v l.first
  let l := if l.last = none then { l with last := some n } else l
  pure { l with first := some n, size := l.size + 1 }

/-- `TYPE##_sll_insert`, lines 753-767. -/
def insert (l : SList α) (v : α) (after : Nat) : Option (SList α) := do
  let a ← l.mem after
  let (n, l) := l.alloc v a.flink
  let l ← l.setFlink after (some n)
  let l := { l with size := l.size + 1 }
  pure (if l.last = some after then { l with last := some n } else l)

/-- The loop of `TYPE##_sll_delete`, lines 846-859, with `tmp` and `mem` of the code. -/
def deleteLoop (tbr : Nat) : Nat → SList α → Ptr → Ptr → Option (SList α)
  | 0, _, _, _ => none
  | _ + 1, l, none, _ => some l
  | k + 1, l, some tmp, mem => do
    let t ← l.mem tmp
    if t.flink = some tbr then
      match mem with
      | none => none
      | some m =>
        let l ← (if l.last = some tbr then do
            let l ← l.setFlink m none
            pure { l with last := some m }
          else do
            let n ← l.mem tbr
            l.setFlink m n.flink)
        let l ← l.free tbr
        pure { l with size := l.size - 1 }
    else
      match mem with
      | none => none
      | some m => do
        let mn ← l.mem m
        deleteLoop tbr k l t.flink mn.flink

/-- `TYPE##_sll_delete`, lines 829-861. -/
def delete (l : SList α) (tbr : Nat) : Option (SList α) :=
  if l.first = some tbr then do
    let l ← (if l.last = some tbr then
        pure { l with first := none, last := none, size := 0 }
      else do
        let n ← l.mem tbr
        pure { l with first := n.flink, size := l.size - 1 })
    l.free tbr
  else deleteLoop tbr (l.next + 1) l l.first l.first

/-- `TYPE##_sll_head`, lines 795-803. -/
def head (l : SList α) : Option (SList α × Option α) :=
  match l.first with
  | none => some (l, none)
  | some tmp => do
    let n ← l.mem tmp
    let l ← l.delete tmp
    pure (l, some n.val)

/-- `TYPE##_sll_tail`, lines 804-812. -/
def tail (l : SList α) : Option (SList α × Option α) :=
  match l.last with
  | none => some (l, none)
  | some tmp => do
    let n ← l.mem tmp
    let l ← l.delete tmp
    pure (l, some n.val)

/-- The loop of `TYPE##_sll_clear`. -/
def clearLoop : Nat → SList α → Option (SList α)
  | 0, _ => none
  | k + 1, l =>
    match l.first with
    | none => some l
    | some tmp => do
      let n ← l.mem tmp
      let l ← { l with first := n.flink }.free tmp
      clearLoop k l

/-- `TYPE##_sll_clear`, lines 820-828. The `last` pointer is not reset. -/
def clear (l : SList α) : Option (SList α) := do
  let l ← clearLoop (l.next + 1) l
  pure { l with size := 0 }

/-- The search loop of `sll_find`, `sll_contains` and `sll_remove`, lines 698-738. -/
def findLoop (l : SList α) (q : α → Bool) : Nat → Ptr → Option Ptr
  | 0, _ => none
  | _ + 1, none => some none
  | k + 1, some c => do
    let n ← l.mem c
    if q n.val then pure (some c) else findLoop l q k n.flink

/-- `TYPE##_sll_find`, lines 698-712; `default_return` is `none`. -/
def find (l : SList α) (q : α → Bool) : Option (Option α) := do
  match ← findLoop l q (l.next + 1) l.first with
  | none => pure none
  | some p => do let n ← l.mem p; pure (some n.val)

/-- `TYPE##_sll_contains`, lines 713-726. -/
def contains (l : SList α) (q : α → Bool) : Option Bool := do
  let r ← findLoop l q (l.next + 1) l.first
  pure r.isSome

/-- `TYPE##_sll_remove`, lines 727-738. -/
def remove (l : SList α) (q : α → Bool) : Option (SList α) := do
  match ← findLoop l q (l.next + 1) l.first with
  | none => pure l
  | some p => l.delete p

/-- One pass of `TYPE##_sll_clone` / one half of `TYPE##_sll_merge` (lines 676-697, 739-745): append every value of the source, if `keep` the
target allows. The iteration over the source is its value sequence (`values`). -/
def appendAll (keep : SList α → α → Option Bool) : List α → SList α → Option (SList α)
  | [], t => some t
  | v :: vs, t => do
    if ← keep t v then
      let t ← t.append v
      appendAll keep vs t
    else appendAll keep vs t

/-- Walking a list with `sll_first` / `sll_next`. -/
def walk (l : SList α) : Nat → Ptr → Option (List α)
  | 0, _ => none
  | _ + 1, none => some []
  | k + 1, some c => do
    let n ← l.mem c
    let r ← walk l k n.flink
    pure (n.val :: r)

def values (l : SList α) : Option (List α) := walk l (l.next + 1) l.first

/-- `TYPE##_sll_clone`, lines 739-745. -/
def clone (src tgt : SList α) : Option (SList α) := do
  let vs ← src.values
  appendAll (fun _ _ => some true) vs tgt

/-- `TYPE##_sll_merge`, lines 676-697 (`fn_cmp(x, v) == 0` is `eq x v`). -/
def merge (a b : SList α) (eq : α → α → Bool) : Option (SList α) := do
  let vb ← b.values
  let r ← appendAll (fun t v => do let c ← t.contains (fun x => eq x v); pure (!c)) vb init
  let va ← a.values
  appendAll (fun t v => do let c ← t.contains (fun x => eq x v); pure (!c)) va r

end SList

/-! ## Histories -/

/-- Operations on a double linked list. -/
inductive DOp (α : Type) where
  | append (v : α) | prepend (v : α) | head | tail | remove (v : α) | clear

/-- One operation with the value handed back to the caller. -/
def DList.step [DecidableEq α] (l : DList α) : DOp α → Option (DList α × Option α)
  | .append v => do let l ← l.append v; pure (l, none)
  | .prepend v => do let l ← l.prepend v; pure (l, none)
  | .head => l.head
  | .tail => l.tail
  | .remove v => do let l ← l.remove (fun x => x = v); pure (l, none)
  | .clear => do let l ← l.clear; pure (l, none)

def DList.run [DecidableEq α] : DList α → List (DOp α) → Option (DList α × List (Option α))
  | l, [] => some (l, [])
  | l, op :: ops => do
    let (l, r) ← l.step op
    let (l, rs) ← DList.run l ops
    pure (l, r :: rs)

/-- Operations on a priority list with comparator `cmp`. -/
inductive POp (α : Type) where
  | insert (v : α) (dupsOk : Bool) | remove (v : α) | replace (v : α) | head | tail | clear

/-- Values returned to the caller. -/
inductive POut (α : Type) where
  | unit | bool (b : Bool) | val (v : Option α)
deriving DecidableEq

def DList.pstep (cmp : α → α → Int) (l : DList α) : POp α → Option (DList α × POut α)
  | .insert v d => do let (l, b) ← l.pllInsert cmp d v; pure (l, .bool b)
  | .remove v => do let l ← l.remove (fun x => cmp x v = 0); pure (l, .unit)
  | .replace v => do let (l, r) ← l.replace (fun x => cmp x v = 0) v; pure (l, .val r)
  | .head => do let (l, r) ← l.head; pure (l, .val r)
  | .tail => do let (l, r) ← l.tail; pure (l, .val r)
  | .clear => do let l ← l.clear; pure (l, .unit)

def DList.prun (cmp : α → α → Int) : DList α → List (POp α) → Option (DList α × List (POut α))
  | l, [] => some (l, [])
  | l, op :: ops => do
    let (l, r) ← l.pstep cmp op
    let (l, rs) ← DList.prun cmp l ops
    pure (l, r :: rs)

/-- Operations on a single linked list; `eq x v` is `fn_cmp(x, v) == 0`. -/
inductive SOp (α : Type) where
  | append (v : α) | prepend (v : α) | head | tail | remove (v : α) | contains (v : α) | find (v : α) | clear
  | insertAfter (u v : α)

inductive SOut (α : Type) where
  | unit | bool (b : Bool) | val (v : Option α)
deriving DecidableEq

def SList.step (eq : α → α → Bool) (l : SList α) : SOp α → Option (SList α × SOut α)
  | .append v => do let l ← l.append v; pure (l, .unit)
  | .prepend v => do let l ← l.prepend v; pure (l, .unit)
  | .head => do let (l, r) ← l.head; pure (l, .val r)
  | .tail => do let (l, r) ← l.tail; pure (l, .val r)
  | .remove v => do let l ← l.remove (fun x => eq x v); pure (l, .unit)
  | .contains v => do let b ← l.contains (fun x => eq x v); pure (l, .bool b)
  | .find v => do let b ← l.find (fun x => eq x v); pure (l, .val b)
  | .clear => do let l ← l.clear; pure (l, .unit)
  -- a caller walks to the first node equal to `u` and inserts behind it (as src/np_pheromones.c:233-254 does)
  | .insertAfter u v => do
    match ← SList.findLoop l (fun x => eq x u) (l.next + 1) l.first with
    | none => pure (l, .unit)
    | some p => do let l ← l.insert v p; pure (l, .unit)

def SList.run (eq : α → α → Bool) : SList α → List (SOp α) → Option (SList α × List (SOut α))
  | l, [] => some (l, [])
  | l, op :: ops => do
    let (l, r) ← l.step eq op
    let (l, rs) ← SList.run eq l ops
    pure (l, r :: rs)

end Np.Lists

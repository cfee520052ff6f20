/-!
# Model of reference counted objects, `src/np_memory.c`

One container (one type of objects).  The steps are the critical sections of the code, so every interleaving of threads
is a sequence of steps; `np_memory_unref_obj` consists of two of them, and so does creating an object.

Not modelled: the content of objects and the callbacks `on_new`, `on_free`, `on_refresh_space` (they may call `ref` and
`unref` for other objects, which are further steps), the `persistent` flag (never set by the code), debug reasons.
-/
namespace Np.Mem

/-- `struct np_memory_itemconf_s`, src/np_memory.c:97-113.  `obj` is ghost: the number of the object that was created
here last.  `deleted`: the memory was given back, every further access is undefined. -/
structure Item where
  ref : Nat := 0
  inUse : Bool := false
  needsRefresh : Bool := true
  obj : Nat := 0
  deleted : Bool := false

/-- `struct np_memory_container_s`, src/np_memory.c:68-93, and the `np_memory_free` calls that are still to come at the
end of running `np_memory_unref_obj` calls.  `addr` is ghost: where object number `s` was created; `freed`: the objects
for which `on_free` was called, in this order. -/
structure Pool where
  hasRefresh : Bool
  items : Nat → Item := fun _ => {}
  size : Nat := 0
  freeItems : List Nat := []
  refreshed : List Nat := []
  frees : List Nat := []
  objs : Nat := 0
  addr : Nat → Nat := fun _ => 0
  freed : List Nat := []

def upd {α : Type} (f : Nat → α) (i : Nat) (x : α) : Nat → α := fun j => if j = i then x else f j

/-- The loop of `np_memory_new`, src/np_memory.c:687-731: take the head until it is one that is not in use. -/
def pick (items : Nat → Item) : List Nat → Option (Nat × List Nat)
  | [] => none
  | i :: r => if (items i).inUse then pick items r else some (i, r)

/-- `__np_memory_refresh_space`, src/np_memory.c:467-494. -/
def refreshItem (x : Item) : Item :=
  if !x.inUse && x.needsRefresh then { x with ref := 0, needsRefresh := false } else x

/-- The end of `np_memory_new`, src/np_memory.c:723-733, for item `i`. -/
def occupy (p : Pool) (i : Nat) : Pool :=
  { p with items := upd p.items i { p.items i with inUse := true, obj := p.objs },
           objs := p.objs + 1, addr := upd p.addr p.objs i }

/-- `np_memory_new`, src/np_memory.c:668-746: an item of the refreshed list, or of the free list, or a new one from
`__np_memory_space_increase` (360-408). -/
def new (p : Pool) : Pool :=
  match pick p.items p.refreshed with
  | some (i, r) => occupy { p with refreshed := r } i
  | none =>
    match pick p.items p.freeItems with
    | some (i, r) =>
      occupy { p with refreshed := [], freeItems := r, items := upd p.items i (refreshItem (p.items i)) } i
    | none =>
      occupy { p with refreshed := [], freeItems := [], size := p.size + 1,
                      items := upd p.items p.size (refreshItem {}) } p.size

/-- `__np_mem_refobj`, src/np_memory.c:877-893, in the lock of the item; the counter is a `uint32_t`. -/
def ref (p : Pool) (i : Nat) : Option Pool :=
  if (p.items i).deleted then none
  else some { p with items := upd p.items i { p.items i with ref := ((p.items i).ref + 1) % 2 ^ 32 } }

/-- The first part of `np_memory_unref_obj` (src/np_memory.c:1395-1408) with `__np_mem_unrefobj` (896-933): abort if the
counter is zero. -/
def unref (p : Pool) (i : Nat) : Option Pool :=
  if (p.items i).deleted then none
  else if (p.items i).ref = 0 then none
  else some { p with items := upd p.items i { p.items i with ref := (p.items i).ref - 1 }, frees := p.frees ++ [i] }

/-- `np_memory_free`, src/np_memory.c:764-801, the second part of `np_memory_unref_obj`. -/
def free (p : Pool) (i : Nat) : Option Pool :=
  if (p.items i).deleted then none
  else if (p.items i).ref = 0 ∧ (p.items i).inUse then
    let p := { p with freed := p.freed ++ [(p.items i).obj] }
    if p.hasRefresh then
      some { p with items := upd p.items i { p.items i with inUse := false, needsRefresh := true },
                    freeItems := p.freeItems ++ [i] }
    else
      some { p with items := upd p.items i { p.items i with inUse := false }, refreshed := p.refreshed ++ [i] }
  else some p

/-- One item of the loop in `_np_memory_job_memory_management`, src/np_memory.c:838-866. -/
def refresh (p : Pool) : Pool :=
  match p.freeItems with
  | [] => p
  | i :: r => { p with freeItems := r, items := upd p.items i (refreshItem (p.items i)), refreshed := p.refreshed ++ [i] }

/-- One item of `__np_memory_space_decrease`, src/np_memory.c:621-666. -/
def shrink (p : Pool) : Option Pool :=
  match p.freeItems, p.refreshed with
  | i :: r, _ => if (p.items i).inUse then none
      else some { p with freeItems := r, items := upd p.items i { p.items i with deleted := true } }
  | [], i :: r => if (p.items i).inUse then none
      else some { p with refreshed := r, items := upd p.items i { p.items i with deleted := true } }
  | [], [] => some p

/-- The steps of threads.  Objects are numbered in the order of their creation. -/
inductive Op
  /-- `np_memory_new`: the first part of `np_new_obj` -/
  | new
  /-- `np_new_obj` (include/np_memory.h:206-210) without interruption: `np_memory_new`, then `np_memory_ref_obj` -/
  | create
  /-- `np_memory_ref_obj`, `np_memory_tryref_obj` -/
  | ref (s : Nat)
  /-- the first part of `np_memory_unref_obj` -/
  | unref (s : Nat)
  /-- the second part of one of the running `np_memory_unref_obj` calls -/
  | free (n : Nat)
  | refresh
  | shrink
deriving DecidableEq

/-- One step; `none` if the process is aborted or memory is accessed that was given back. -/
def step (p : Pool) : Op → Option Pool
  | .new => some (new p)
  | .create => ref (new p) ((new p).addr p.objs)
  | .ref s => ref p (p.addr s)
  | .unref s => unref p (p.addr s)
  | .free n =>
    match p.frees[n]? with
    | some i => free { p with frees := p.frees.eraseIdx n } i
    | none => some p
  | .refresh => some (refresh p)
  | .shrink => shrink p

def run : Pool → List Op → Option Pool
  | p, [] => some p
  | p, op :: r => match step p op with | some p' => run p' r | none => none

end Np.Mem

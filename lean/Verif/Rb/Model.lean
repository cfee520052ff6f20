/-! # Model of the red-black tree

`RB_GENERATE_INTERNAL`, include/tree/tree.h:387-661.  The nodes linked by pointers become a tree; the parent pointers followed on the way up
become the list of frames between a node and the root. `RB_AUGMENT` is empty. -/
namespace Np.Rb

/-- `RB_BLACK`, `RB_RED`, include/tree/tree.h:291-292. -/
inductive Color | red | black
  deriving DecidableEq

/-- `RB_ENTRY`, include/tree/tree.h:293-299. -/
inductive T (α : Type) where
  | leaf
  | node (c : Color) (l : T α) (x : α) (r : T α)
  deriving DecidableEq

/-- What lies between a node and its parent: the parent's colour, element and other child. -/
inductive Frame (α : Type) where
  | left (c : Color) (x : α) (r : T α)
  | right (c : Color) (l : T α) (x : α)

variable {α : Type}

/-- The tree around a node. -/
def zip (t : T α) : List (Frame α) → T α
  | [] => t
  | .left c x r :: p => zip (.node c t x r) p
  | .right c l x :: p => zip (.node c l x t) p

/-- Whether the colour of a node is red; there is no node behind NULL. -/
def T.isRed : T α → Bool
  | .node .red _ _ _ => true
  | _ => false

/-- `RB_COLOR(t) = RB_BLACK`, for a node. -/
def T.blacken : T α → T α
  | .leaf => .leaf
  | .node _ l x r => .node .black l x r

/-- `RB_INSERT_COLOR`, include/tree/tree.h:389-429, from the node `elm`.  `none` if a null pointer would be followed. -/
def insertColor (elm : T α) : List (Frame α) → Option (T α)
  | [] => some elm.blacken
  | .left .black x r :: p => some (zip (.node .black elm x r) p).blacken
  | .right .black l x :: p => some (zip (.node .black l x elm) p).blacken
  | .left .red _ _ :: [] => none
  | .right .red _ _ :: [] => none
  | .left .red x xr :: .left _ g gr :: p =>
    if gr.isRed then insertColor (.node .red (.node .black elm x xr) g gr.blacken) p
    else some (zip (.node .black elm x (.node .red xr g gr)) p).blacken
  | .right .red xl x :: .left _ g gr :: p =>
    if gr.isRed then insertColor (.node .red (.node .black xl x elm) g gr.blacken) p
    else match elm with
      | .leaf => none
      | .node _ a e b => some (zip (.node .black (.node .red xl x a) e (.node .red b g gr)) p).blacken
  | .right .red xl x :: .right _ gl g :: p =>
    if gl.isRed then insertColor (.node .red gl.blacken g (.node .black xl x elm)) p
    else some (zip (.node .black (.node .red gl g xl) x elm) p).blacken
  | .left .red x xr :: .right _ gl g :: p =>
    if gl.isRed then insertColor (.node .red gl.blacken g (.node .black elm x xr)) p
    else match elm with
      | .leaf => none
      | .node _ a e b => some (zip (.node .black (.node .red gl g a) e (.node .red b x xr)) p).blacken

/-- One turn of `RB_REMOVE_COLOR`, include/tree/tree.h:437-469 and 470-501, for a sibling that is not red: done with the tree, or going on with
the parent. -/
inductive Turn (α : Type) where
  | done (t : T α)
  | up (elm : T α) (p : List (Frame α))

/-- The node is the left child, include/tree/tree.h:437-469, for a sibling that is not red. -/
def turnLeft (elm : T α) (c : Color) (x : α) (tmp : T α) (p : List (Frame α)) : Option (Turn α) :=
  match tmp with
  | .leaf => none
  | .node tc tl tx tr =>
    if ¬ tl.isRed ∧ ¬ tr.isRed then some (.up (.node c elm x (.node .red tl tx tr)) p)
    else if ¬ tr.isRed then
      match tl with
      | .leaf => none
      | .node _ a y b => some (.done (zip (.node c (.node .black elm x a) y (.node .black b tx tr)) p))
    else some (.done (zip (.node c (.node .black elm x tl) tx tr.blacken) p))

/-- The node is the right child, include/tree/tree.h:470-501, for a sibling that is not red. -/
def turnRight (elm : T α) (c : Color) (x : α) (tmp : T α) (p : List (Frame α)) : Option (Turn α) :=
  match tmp with
  | .leaf => none
  | .node tc tl tx tr =>
    if ¬ tl.isRed ∧ ¬ tr.isRed then some (.up (.node c (.node .red tl tx tr) x elm) p)
    else if ¬ tl.isRed then
      match tr with
      | .leaf => none
      | .node _ a y b => some (.done (zip (.node c (.node .black tl tx a) y (.node .black b x elm)) p))
    else some (.done (zip (.node c tl.blacken tx (.node .black tr x elm)) p))

/-- `RB_REMOVE_COLOR`, include/tree/tree.h:431-504. If the sibling is red there is a rotation first, and the parent becomes red; the loop
then ends after this turn, because the node it goes on with is red. -/
def removeColor (elm : T α) : List (Frame α) → Option (T α)
  | [] => some elm.blacken
  | .left c x r :: p =>
    if elm.isRed then some (zip (.node c elm.blacken x r) p)
    else match r with
      | .node .red a y b =>
        match turnLeft elm .red x a (.left .black y b :: p) with
        | none => none
        | some (.done t) => some t.blacken
        | some (.up e q) => some (zip e.blacken q)
      | _ =>
        match turnLeft elm c x r p with
        | none => none
        | some (.done t) => some t.blacken
        | some (.up e _) => removeColor e p
  | .right c l x :: p =>
    if elm.isRed then some (zip (.node c l x elm.blacken) p)
    else match l with
      | .node .red a y b =>
        match turnRight elm .red x b (.right .black a y :: p) with
        | none => none
        | some (.done t) => some t.blacken
        | some (.up e q) => some (zip e.blacken q)
      | _ =>
        match turnRight elm c x l p with
        | none => none
        | some (.done t) => some t.blacken
        | some (.up e _) => removeColor e p

/-- The leftmost node below a node: its element, its colour, its right child and the way to it, include/tree/tree.h:511-517. -/
def leftmost (c : Color) (l : T α) (x : α) (r : T α) (p : List (Frame α)) : α × Color × T α × List (Frame α) :=
  match l with
  | .leaf => (x, c, r, p)
  | .node c' l' x' r' => leftmost c' l' x' r' (.left c x r :: p)

/-- `RB_REMOVE`, include/tree/tree.h:506-554, of the node with these parts. -/
def removeAt (c : Color) (l r : T α) (p : List (Frame α)) : Option (T α) :=
  match l, r with
  | .leaf, r => if c = .black then removeColor r p else some (zip r p)
  | l, .leaf => if c = .black then removeColor l p else some (zip l p)
  | l, .node rc rl rx rr =>
    match leftmost rc rl rx rr [] with
    | (m, mc, child, q) => if mc = .black then removeColor child (q ++ .right c l m :: p) else some (zip child (q ++ .right c l m :: p))

/-- `RB_FIND`, include/tree/tree.h:580-590, with the way to the node. The comparison with the element sought is `cmp`. -/
def locate (cmp : α → Int) : T α → List (Frame α) → Option (Color × T α × α × T α × List (Frame α))
  | .leaf, _ => none
  | .node c l x r, p =>
    if cmp x < 0 then locate cmp l (.left c x r :: p)
    else if cmp x > 0 then locate cmp r (.right c l x :: p)
    else some (c, l, x, r, p)

/-- `RB_FIND`. -/
def find (cmp : α → Int) : T α → Option α
  | .leaf => none
  | .node _ l x r => if cmp x < 0 then find cmp l else if cmp x > 0 then find cmp r else some x

/-- `RB_NFIND`, include/tree/tree.h:593-606. -/
def nfind (cmp : α → Int) : T α → Option α → Option α
  | .leaf, res => res
  | .node _ l x r, res => if cmp x < 0 then nfind cmp l (some x) else if cmp x > 0 then nfind cmp r res else some x

/-- The place for a new node, include/tree/tree.h:561-568; `none` if there is an equal one. -/
def place (cmp : α → Int) : T α → List (Frame α) → Option (List (Frame α))
  | .leaf, p => some p
  | .node c l x r, p =>
    if cmp x < 0 then place cmp l (.left c x r :: p)
    else if cmp x > 0 then place cmp r (.right c l x :: p)
    else none

/-- `RB_INSERT`, include/tree/tree.h:557-577; an element that compares equal is left, and the new one is not part of the tree. -/
def insert (cmp : α → Int) (x : α) (t : T α) : Option (T α) :=
  match place cmp t [] with
  | none => some t
  | some p => insertColor (.node .red .leaf x .leaf) p

/-- `RB_FIND` and `RB_REMOVE` of what was found. -/
def remove (cmp : α → Int) (t : T α) : Option (T α) :=
  match locate cmp t [] with
  | none => some t
  | some (c, l, _, r, p) => removeAt c l r p

/-- The elements in the order of `RB_FOREACH`, include/tree/tree.h:609-629 and 673-674. -/
def toList : T α → List α
  | .leaf => []
  | .node _ l x r => toList l ++ x :: toList r

end Np.Rb

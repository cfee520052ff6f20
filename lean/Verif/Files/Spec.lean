import Verif.Files.Model
/-!
# What a user expects who shares files
-/
namespace Np.Files.Spec
open _root_.Np.Files
open Np.Http (Text)

/-- What happens to a node that shares files: its user shares something or ends that, somebody reads a page, a file is sent.  `data` is what is in the file at that
moment, `look` what is found at a name. -/
inductive Op
  | share (k : Option Node)
  | unshare (name : Text)
  | get (k : Nat) (args : Option Http.Map) (look : Text → Option Node) (data : Option Bytes)
  | send (k : Nat) (data : Option Bytes)

def step (id : Text → Nat) (s : St) : Op → Except Fault St
  | .share k => openPath id s k
  | .unshare n => .ok (closePath s n)
  | .get k args look data => (page id look s k args data).map (·.1)
  | .send k data => (send s k data).map (·.1)

def run (id : Text → Nat) (s : St) : List Op → Except Fault St
  | [] => .ok s
  | o :: os => match step id s o with
    | .error f => .error f
    | .ok s' => run id s' os

mutual

/-- The subjects of a file, or of a directory and what is visible in it. -/
def ids (id : Text → Nat) : Node → List Nat
  | .file name _ => [subject id name]
  | .dir name kids => subject id name :: idsKids id kids

def idsKids (id : Text → Nat) : List Node → List Nat
  | [] => []
  | k :: ks => if k.name.head? = some 46 then idsKids id ks else ids id k ++ idsKids id ks

end

mutual

/-- All visible files can be read and are not empty. -/
def Good : Node → Prop
  | .file _ data => ∃ b, data = some b ∧ b ≠ []
  | .dir _ kids => GoodKids kids

def GoodKids : List Node → Prop
  | [] => True
  | k :: ks => (k.name.head? ≠ some 46 → Good k) ∧ GoodKids ks

end

/-- The entries of a directory that are files. -/
def filesIn (id : Text → Nat) : List Node → List Nat
  | [] => []
  | .file name _ :: ks => if name.head? = some 46 then filesIn id ks else subject id name :: filesIn id ks
  | .dir _ _ :: ks => filesIn id ks

/-- The entries of a directory that are directories. -/
def dirsIn (id : Text → Nat) : List Node → List Nat
  | [] => []
  | .dir name _ :: ks => if name.head? = some 46 then dirsIn id ks else subject id name :: dirsIn id ks
  | .file _ _ :: ks => dirsIn id ks

mutual

/-- Something in the directory `d` is shared: a file has a page with its name, place and type, a directory one with its entries, and these are shared. -/
def Shared (id : Text → Nat) (s : St) (d : Dir) : Node → Prop
  | .file name _ => ∀ look data, ∃ s' content, page id look s (subject id name) none data = .ok (s', .file (name.take 256) d (mimeOf name) content, mimeOf name)
  | .dir name kids => (∀ look data, page id look s (subject id name) none data = .ok (s, .dir (name.take 256) (d ++ [name]) (dirsIn id kids) (filesIn id kids), 2)) ∧
    SharedKids id s (d ++ [name]) kids

def SharedKids (id : Text → Nat) (s : St) (d : Dir) : List Node → Prop
  | [] => True
  | k :: ks => (k.name.head? ≠ some 46 → Shared id s d k) ∧ SharedKids id s d ks

end

/-- The types of framework/files/file.c:37-75 and the suffix each is for, by hand. -/
inductive Mime
  | graphql | js | json | ldJson | pdf | xml | zip | mpeg | ogg | gif | jpeg | png | css | csv | md | html | txt
  deriving DecidableEq, Repr

def Mime.number : Mime → Nat
  | graphql => 0 | js => 1 | json => 2 | ldJson => 3 | pdf => 4 | xml => 5 | zip => 6 | mpeg => 7 | ogg => 8 | gif => 9 | jpeg => 10 | png => 11 | css => 12
  | csv => 13 | md => 14 | html => 15 | txt => 16

def Mime.suffix : Mime → Text
  | graphql => [46, 103, 114, 97, 112, 104, 113, 108]
  | js => [46, 106, 115]
  | json => [46, 106, 115, 111, 110]
  | ldJson => [46, 108, 100, 43, 106, 115, 111, 110]
  | pdf => [46, 112, 100, 102]
  | xml => [46, 120, 109, 108]
  | zip => [46, 122, 105, 112]
  | mpeg => [46, 109, 112, 101, 103]
  | ogg => [46, 111, 103, 103]
  | gif => [46, 103, 105, 102]
  | jpeg => [46, 106, 112, 101, 103]
  | png => [46, 112, 110, 103]
  | css => [46, 99, 115, 115]
  | csv => [46, 99, 115, 118]
  | md => [46, 109, 100]
  | html => [46, 104, 116, 109, 108]
  | txt => [46, 116, 120, 116]

/-- What is on a disk under a name. -/
def on (d : Disk) (n : Text) : Option Bytes := (d.find? fun e => e.1 == n).map (·.2)

/-- Lines, each with its end. -/
def lines (l : List Bytes) : Bytes := l.flatMap fun x => x ++ [10]

end Np.Files.Spec

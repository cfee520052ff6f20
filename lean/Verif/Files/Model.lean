import Verif.Http.Model
/-!
# Model of the sharing of files, `framework/files/file.c`

Texts are lists of bytes without a NUL.  A tree (`np_tree_t`) with texts as keys is a list of pairs in which the first insertion stays (area Tree).  The
subject of a name, "files/" and the hash as text (458-471), is the value of a function `id`.  Changing to a directory that was found succeeds.  The numbers of
entries of a directory fit into sixteen bits.  Allocations succeed, and what they return is not set.  The setup of the subjects is left out.
-/
namespace Np.Files
open Np.Http (Text)

abbrev Bytes := List Nat
abbrev Dir := List Text

/-- What `stat` and `readdir` find; `data` is what can be read, `none`: the file cannot be opened. -/
inductive Node
  | file (name : Text) (data : Option Bytes)
  | dir (name : Text) (kids : List Node)

def Node.name : Node → Text
  | .file n _ => n
  | .dir n _ => n

/-- The member `mmap_region`. -/
inductive Region
  | unset
  | null
  | at (b : Bytes)
  deriving DecidableEq, Repr

/-- The member `fd`; `stale`: a number that was closed already. -/
inductive Fd
  | unset
  | none
  | live
  | stale
  deriving DecidableEq, Repr

/-- `struct np_file_info`, framework/files/file.c:108-126. -/
structure FileInfo where
  name : Text
  cwd : Dir
  loaded : Bool
  region : Region
  size : Nat
  mime : Nat
  fd : Fd
  deriving DecidableEq, Repr

/-- `struct np_dir_info`, framework/files/file.c:128-136. -/
structure DirInfo where
  name : Text
  cwd : Dir
  dirs : List Nat
  files : List Nat
  deriving DecidableEq, Repr

/-- What an entry of the tree points to: a file, or the directory with this number. -/
inductive Ref
  | file (i : FileInfo)
  | dir (n : Nat)
  deriving DecidableEq, Repr

/-- `struct np_files`, framework/files/file.c:138-146, the directories that were allocated, the working directory of the process, and whether a descriptor was
closed that was closed before. -/
structure St where
  tree : List (Nat × Ref)
  dirs : List DirInfo
  mapped : Nat
  cwd : Dir
  stray : Bool
  deriving DecidableEq, Repr

/-- What is not defined: memory that was not set is used, or a file is taken for a directory. -/
inductive Fault
  | garbage
  | confused
  | missing
  deriving DecidableEq, Repr

/-- `strnlen` of framework/files/file.c:463: 256 bytes of a name are hashed. -/
def subject (id : Text → Nat) (name : Text) : Nat := id (name.take 256)

/-- `np_tree_find_str` on the tree of the files. -/
def find (s : St) (k : Nat) : Option Ref := (s.tree.find? (fun e => e.1 == k)).map (·.2)

/-- `np_tree_insert_str` on the tree of the files, src/util/np_tree.c:333-354. -/
def insert (s : St) (k : Nat) (r : Ref) : St := if s.tree.any (fun e => e.1 == k) then s else { s with tree := s.tree ++ [(k, r)] }

/-- A change of a file to which the tree points. -/
def setFile (s : St) (k : Nat) (i : FileInfo) : St := { s with tree := s.tree.map fun e => if e.1 == k then (e.1, .file i) else e }

/-- `__load_file`, framework/files/file.c:178-211; `data` is what is in the file now.  `mmap` fails for a length of 0 and shows at most the length of the file. The
working directory is only restored at the end (210). -/
def load (s : St) (i : FileInfo) (data : Option Bytes) : St × FileInfo :=
  match data with
  | none => ({ s with cwd := i.cwd }, i)
  | some b =>
    if i.size = 0 then ({ s with cwd := i.cwd }, { i with fd := .stale })
    else ({ s with mapped := s.mapped + i.size }, { i with fd := .live, loaded := true, region := .at (b.take i.size) })

/-- `__close_file`, framework/files/file.c:213-231: the size is set to 0 (228) before it is subtracted (230). -/
def close (s : St) (i : FileInfo) : Except Fault (St × FileInfo) :=
  match i.region, i.fd with
  | .unset, _ => .error .garbage
  | _, .unset => .error .garbage
  | _, fd => .ok ({ s with stray := s.stray || fd == .stale }, { i with fd := .none, loaded := false, region := .null, size := 0 })

/-- The suffixes, framework/files/file.c:77-94. -/
def suffixes : List Text := [
  [46, 103, 114, 97, 112, 104, 113, 108], [46, 106, 115], [46, 106, 115, 111, 110], [46, 108, 100, 43, 106, 115, 111, 110], [46, 112, 100, 102],
  [46, 120, 109, 108], [46, 122, 105, 112], [46, 109, 112, 101, 103], [46, 111, 103, 103], [46, 103, 105, 102], [46, 106, 112, 101, 103],
  [46, 112, 110, 103], [46, 99, 115, 115], [46, 99, 115, 118], [46, 109, 100], [46, 104, 116, 109, 108], [46, 116, 120, 116]]

/-- `strrchr` with '.', framework/files/file.c:97. -/
def lastDot : Text → Option Text
  | [] => none
  | c :: cs => match lastDot cs with
    | some t => some t
    | none => if c = 46 then some (c :: cs) else none

/-- The comparison of framework/files/file.c:99-101: as many bytes up to five, and the first three the same. -/
def fits (suffix entry : Text) : Bool := (suffix.take 5).length == (entry.take 5).length && suffix.take 3 == entry.take 3

/-- `__find_mime_type`, framework/files/file.c:96-105; 16 is `text_plain`. -/
def mimeOf (name : Text) : Nat :=
  match lastDot name with
  | none => 16
  | some t => (suffixes.findIdx? (fits t)).getD 16

/-- What `__file_open` notes about a file it has found, framework/files/file.c:524-563; the members `fd` and `memory_region` are not set. -/
def fresh (s : St) (name : Text) (data : Option Bytes) : FileInfo :=
  { name := name.take 256, cwd := s.cwd, loaded := false, region := .unset, size := (data.getD []).length, mime := mimeOf name, fd := .unset }

/-- `__file_open`, framework/files/file.c:524-688, without the search (589-678), for a file that was found. -/
def fileOpen (id : Text → Nat) (s : St) (name : Text) (data : Option Bytes) : Except Fault (St × Option Nat) :=
  let k := subject id name
  if (find s k).isSome then .ok (s, none)
  else
    let l := load s (fresh s name data) data
    match close (insert l.1 k (.file l.2)) l.2 with
    | .error f => .error f
    | .ok (s, i) => .ok (setFile s k i, some k)

/-- Sets the member `ci.cwd`, framework/files/file.c:746. -/
def setCwd (s : St) (n : Nat) (d : Dir) : St := { s with dirs := s.dirs.modify n fun i => { i with cwd := d } }

/-- Adds an entry to a directory, framework/files/file.c:760-764, 887-891. -/
def addDir (s : St) (n k : Nat) : St := { s with dirs := s.dirs.modify n fun i => { i with dirs := i.dirs ++ [k] } }

/-- Adds an entry to a directory, framework/files/file.c:770-774, 896-900. -/
def addFile (s : St) (n k : Nat) : St := { s with dirs := s.dirs.modify n fun i => { i with files := i.files ++ [k] } }

/-- Adds the entry for what was found, if there is to be one, framework/files/file.c:757-776, 884-902. -/
def addTo (s : St) (n : Nat) : Node → Option Nat → St
  | _, none => s
  | .file _ _, some e => addFile s n e
  | .dir _ _, some e => addDir s n e

/-- The directory that `__dir_open` works on and whether it is a new one, framework/files/file.c:712-738. -/
def dirInfo (s : St) (k : Nat) (name : Text) : Except Fault (St × Nat × Bool) :=
  match find s k with
  | none => .ok ({ s with dirs := s.dirs ++ [{ name := name.take 256, cwd := [], dirs := [], files := [] }] }, s.dirs.length, true)
  | some (.dir n) => .ok (s, n, false)
  | some (.file _) => .error .confused

/-- A name that begins with a dot, framework/files/file.c:751. -/
def hidden (name : Text) : Bool := name.head? == some 46

mutual

/-- `__dir_open` and `__file_open`, framework/files/file.c:524-688, 690-810, for what was found at a name; the result is the entry for the directory above, if it
is to have one. -/
def walk (id : Text → Nat) (s : St) : Node → Except Fault (St × Option Nat)
  | .file name data => fileOpen id s name data
  | .dir name kids =>
    match dirInfo s (subject id name) name with
    | .error f => .error f
    | .ok (s1, n, new) =>
      match walkKids id (setCwd { s1 with cwd := s.cwd ++ [name] } n (s.cwd ++ [name])) n kids with
      | .error f => .error f
      | .ok s2 =>
        let s3 := { s2 with cwd := s.cwd }
        if new then .ok (insert s3 (subject id name) (.dir n), some (subject id name)) else .ok (s3, none)

/-- The loop over the entries, framework/files/file.c:750-778. -/
def walkKids (id : Text → Nat) (s : St) (n : Nat) : List Node → Except Fault St
  | [] => .ok s
  | k :: ks =>
    if hidden k.name then walkKids id s n ks
    else match walk id s k with
      | .error f => .error f
      | .ok (s', e) => walkKids id (addTo s' n k e) n ks

end

/-- The subject "files" of the root, framework/files/file.c:816, is none of the others. -/
def root : Nat := 0

/-- The state in which `np_files_open` finds or makes the root, framework/files/file.c:825-880; the root is directory 0. -/
def start (cwd : Dir) : St :=
  { tree := [(root, .dir 0)], dirs := [{ name := [47], cwd := [], dirs := [], files := [] }], mapped := 0, cwd := cwd, stray := false }

/-- `np_files_open`, framework/files/file.c:812-915; `none`: nothing is found at the name. -/
def openPath (id : Text → Nat) (s : St) : Option Node → Except Fault St
  | none => .ok s
  | some k =>
    match walk id s k with
    | .error f => .error f
    | .ok (s', e) => .ok { (addTo s' 0 k e) with cwd := s.cwd }

/-- `np_files_close`, framework/files/file.c:917. -/
def closePath (s : St) (_alias : Text) : St := s

/-- What is told about a file, framework/files/file.c:233-265, or a directory (267-300). -/
inductive Page
  | file (name : Text) (cwd : Dir) (mime : Nat) (content : Option Bytes)
  | dir (name : Text) (cwd : Dir) (dirs files : List Nat)
  | error
  deriving DecidableEq, Repr

/-- `__create_file_info`, framework/files/file.c:233-265. -/
def fileInfo (i : FileInfo) (content : Bool) : Page :=
  .file i.name i.cwd i.mime (if content && i.loaded then (match i.region with | .at b => some b | _ => some []) else none)

/-- `__np_file_handle_http_get_file`, framework/files/file.c:302-376, with the type in the header: the first insertion stays (332-334, 359-361).  2 is
`application_json`. -/
def getFile (s : St) (k : Nat) (i : FileInfo) (data : Option Bytes) : Except Fault (St × Page × Nat) :=
  let big := i.size ≥ 65535
  let (s1, i1) := if big || i.loaded then (s, i) else load s i data
  match close s1 i1 with
  | .error f => .error f
  | .ok (s2, i2) => .ok (setFile s2 k i2, fileInfo i1 (!big), i.mime)

/-- "share_file" of framework/files/file.c:35. -/
def shareWord : Text := [115, 104, 97, 114, 101, 95, 102, 105, 108, 101]

/-- `__np_file_handle_http_get_dir`, framework/files/file.c:378-456; `look` is what is found at a name, after `urlDecode` (area Url). -/
def getDir (id : Text → Nat) (look : Text → Option Node) (s : St) (n : Nat) (args : Option Http.Map) : Except Fault (St × Page × Nat) :=
  let s1 : Except Fault St := match args.bind fun m => Http.get m shareWord with
    | none => .ok s
    | some name => openPath id s (look name)
  match s1 with
  | .error f => .error f
  | .ok s1 => match s1.dirs[n]? with
    | none => .error .garbage
    | some d => .ok (s1, .dir d.name d.cwd d.dirs d.files, 2)

/-- A page of the http interface for the path of an entry; the handler is the one for what the entry is. -/
def page (id : Text → Nat) (look : Text → Option Node) (s : St) (k : Nat) (args : Option Http.Map) (data : Option Bytes) : Except Fault (St × Page × Nat) :=
  match find s k with
  | none => .ok (s, .error, 2)
  | some (.file i) => getFile s k i data
  | some (.dir n) => getDir id look s n args

/-- `np_files_send_authorized`, framework/files/file.c:516-522, with `__send_file` (490-514) and `__send_dir` (473-488): what is sent, if anything is. -/
def send (s : St) (k : Nat) (data : Option Bytes) : Except Fault (St × Option Page) :=
  match find s k with
  | none => .ok (s, none)
  | some (.file i) =>
    let (s1, i1) := if i.loaded then (s, i) else load s i data
    match close s1 i1 with
    | .error f => .error f
    | .ok (s2, i2) => .ok (setFile s2 k i2, if i1.loaded then some (fileInfo i1 true) else none)
  | some (.dir n) => match s.dirs[n]? with
    | none => .error .garbage
    | some d => .ok (s, some (.dir d.name d.cwd d.dirs d.files))

/-- The files on the disk of a receiver. -/
abbrev Disk := List (Text × Bytes)

/-- Writes a file, whether it was there or not. -/
def Disk.put (d : Disk) (n : Text) (b : Bytes) : Disk := (n, b) :: d.filter fun e => e.1 != n

/-- `np_files_store_cb`, framework/files/file.c:922-962, with the disk behind it in any case; the entries of the message may be missing.  `able` says whether the
file can be opened, `n` how many bytes `write` takes. -/
def store (d : Disk) (able : Bool) (n : Nat) (npId : Option Text) (content : Option Bytes) (name : Option Text) : Disk × Except Fault Bool :=
  match npId with
  | none => (d, .error .missing)
  | some p =>
    if !able then (d, .ok true)
    else match content with
      | none => (d.put p [], .error .missing)
      | some b => (d.put p (b.take n), match name with | none => .error .missing | some _ => .ok true)

/-- The texts that are indexed, framework/files/file.c:646-675; `none`: a text is read behind the end of the mapping.  Behind a file there are zeros up to the end
of its last page of 4096 bytes (`size` is that of the whole file); `strndup` stops at a zero (653).  -/
def texts (size : Nat) : Nat → Bytes → Option (List Bytes)
  | 0, _ => some []
  | _ + 1, [] => some []
  | fuel + 1, b =>
    if 10 ∈ b then (texts size fuel ((b.dropWhile (· != 10)).drop 1)).map fun l => (b.takeWhile (· != 10)).takeWhile (· != 0) :: l
    else if 0 ∈ b ∨ size % 4096 ≠ 0 then some [b.takeWhile (· != 0)] else none

/-- The texts that are indexed of a file, framework/files/file.c:646-675. -/
def index (b : Bytes) : Option (List Bytes) := texts b.length b.length b

end Np.Files

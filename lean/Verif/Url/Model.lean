/-! # Decoding of the arguments of web requests, framework/http/urldecode.c -/
namespace Np.Url

abbrev Byte := BitVec 8

/-- What can go wrong: a read beyond the memory, or no end. -/
inductive Fault where
  | bounds
  | hang
  deriving DecidableEq, Repr

abbrev Out := Except Fault

/-- `%`. -/
def pct : Byte := 37

/-- `isxdigit`, and the value `strtol(…, 16)` has for the digit. -/
def digit (b : Byte) : Option Nat :=
  let n := b.toNat
  if 48 ≤ n ∧ n ≤ 57 then some (n - 48)
  else if 65 ≤ n ∧ n ≤ 70 then some (n - 55)
  else if 97 ≤ n ∧ n ≤ 102 then some (n - 87)
  else none

/-- What happens at one position of the loop: the function returns, nothing changes, or the memory changes. -/
inductive Res where
  | ret
  | keep
  | decoded (m : List Byte)
  deriving DecidableEq, Repr

/-- The `memmove` and the assignment, framework/http/urldecode.c:42-44, with the text behind the digits moved together with its zero. Without a zero
`strnlen` reads beyond the memory: less than `len` bytes of it are left. -/
def shift (m : List Byte) (i : Nat) (x : Byte) : Out (List Byte) :=
  if 0 ∈ m.drop (i + 3) then
    let text := (m.drop (i + 3)).takeWhile (· ≠ 0)
    .ok (m.take i ++ x :: text ++ 0 :: m.drop (i + 2 + text.length))
  else .error .bounds

/-- The second digit, framework/http/urldecode.c:31-44. -/
def second (m : List Byte) (i hi : Nat) : Out Res :=
  match m[i + 2]? with
  | none => .error .bounds
  | some c =>
    match digit c with
    | none => .ok .keep
    | some lo =>
      match shift m i (BitVec.ofNat 8 (hi * 16 + lo)) with
      | .error f => .error f
      | .ok m' => .ok (.decoded m')

/-- Behind a percent sign, framework/http/urldecode.c:29-31. -/
def first (m : List Byte) (i : Nat) : Out Res :=
  match m[i + 1]? with
  | none => .error .bounds
  | some b =>
    if b = 0 then .ok .ret
    else
      match digit b with
      | none => .ok .keep
      | some hi => second m i hi

/-- The body of the inner loop, framework/http/urldecode.c:28-46. -/
def visit (m : List Byte) (i : Nat) : Out Res :=
  match m[i]? with
  | none => .error .bounds
  | some b => if b = pct then first m i else .ok .keep

/-- How a run of the inner loop ends: whether the function returns, the memory, whether something was decoded. -/
structure Pass where
  ret : Bool
  mem : List Byte
  some : Bool
  deriving DecidableEq, Repr

/-- The inner loop, framework/http/urldecode.c:26-47, with `n` positions left. -/
def pass : Nat → Nat → List Byte → Bool → Out Pass
  | 0, _, m, d => .ok ⟨false, m, d⟩
  | n + 1, i, m, d =>
    match visit m i with
    | .error f => .error f
    | .ok .ret => .ok ⟨true, m, d⟩
    | .ok .keep => pass n (i + 1) m d
    | .ok (.decoded m') => pass n (i + 1) m' true

/-- The outer loop, framework/http/urldecode.c:22-48: to the first pass that decodes nothing. -/
def loop (len : Nat) : Nat → List Byte → Out (List Byte)
  | 0, _ => .error .hang
  | fuel + 1, m =>
    match pass len 0 m false with
    | .error f => .error f
    | .ok p => if p.ret = true ∨ p.some = false then .ok p.mem else loop len fuel p.mem

/-- `urlDecode`, framework/http/urldecode.c:13-51, as it is called at framework/sysinfo/np_sysinfo.c:607, framework/search/np_search.c:772 and
framework/files/file.c:395: `len` is the length of the text without its zero, `last` is what the last byte of the memory from `malloc` holds, which `strncpy`
does not set. The result is the memory. Simplified: `isxdigit` of a negative `char` is false. -/
def decodeMem (str : List Byte) (last : Byte) : Out (List Byte) := loop str.length (str.length + 2) (str ++ [last])

/-- The memory as the callers read it: up to a zero. -/
def text (m : List Byte) : Out (List Byte) := if 0 ∈ m then .ok (m.takeWhile (· ≠ 0)) else .error .bounds

/-- The decoded text. -/
def decode (str : List Byte) (last : Byte) : Out (List Byte) :=
  match decodeMem str last with
  | .error f => .error f
  | .ok m => text m

end Np.Url

import Verif.Prom.Model

/-!
# What the metrics are expected to do

Independent of how the text is produced: the text of a metric according to the exposition format, the exact total of a counter.
-/
namespace Np.Prom.Spec

/-- The text of a list of labels: `name="value"`, separated by commas. -/
def labelText (l : Label) : Text := l.name ++ [61, 34] ++ l.value ++ [34]

def labelsText (ls : List Label) : Text := List.intercalate [44] (ls.map labelText)

/-- A line of the page: `name[{labels}] value[ time]` and a newline. -/
def line (m : Metric) : Text :=
  m.name ++ (if m.labels = [] then [] else [123] ++ labelsText m.labels ++ [125]) ++ [32] ++ m.value ++
    (match m.stamp with | some t => [32] ++ t | none => []) ++ [10]

/-- The page. -/
def page (reg : List Metric) : Text := (reg.map line).flatten

/-- The names fit in their 255 bytes. -/
def Fits (m : Metric) : Prop := m.name.length < 255 ∧ ∀ l ∈ m.labels, l.name.length < 255 ∧ l.value.length < 255

/-- A value printed with `"%f"` has at least one digit, the dot and six digits; a name has at least two characters; a time has a digit. -/
def Usual (m : Metric) : Prop := 2 ≤ m.name.length ∧ 8 ≤ m.value.length ∧ ∀ t, m.stamp = some t → 1 ≤ t.length

/-- The number of bytes of the page times the number of pieces stays below 2^32 (a page of a megabyte in four thousand pieces). -/
def Small (reg : List Metric) : Prop := (pieces reg).length * (page reg).length < 2 ^ 32

/-- The value has at most 20 characters, the time at most 13 digits. -/
def Short (m : Metric) : Prop := m.value.length ≤ 20 ∧ ∀ t, m.stamp = some t → t.length ≤ 13

/-- The bounds given for the pieces are large enough: `size` before, `ptr` bytes already there. -/
def RoomyFrom : Nat → Nat → List Text → Prop
  | _, _, [] => True
  | size, ptr, t :: r => t.length < size ∧ RoomyFrom ((size + (2 ^ 32 - (ptr + t.length))) % 2 ^ 32) (ptr + t.length) r

def Roomy (reg : List Metric) : Prop := RoomyFrom (formatSize reg) 0 (pieces reg)

/-- The exact value of a metric after some operations. -/
def exact : Nat → List Op → Nat
  | v, [] => v
  | v, .inc n :: r => exact (v + n) r
  | _, .set n :: r => exact n r
  | v, .get :: r => exact v r

/-- All values on the way, and all arguments, are at most `b`. -/
def Below (b : Nat) : Nat → List Op → Prop
  | v, [] => v ≤ b
  | v, .inc n :: r => v ≤ b ∧ n ≤ b ∧ Below b (v + n) r
  | v, .set n :: r => v ≤ b ∧ n ≤ b ∧ Below b n r
  | v, .get :: r => v ≤ b ∧ Below b v r

/-- The values of the labels with a name. -/
def valuesOf (n : Text) (ls : List Label) : List Text := (ls.filter fun l => l.name = n).map (·.value)

end Np.Prom.Spec

/-!
# Model of the metrics registry

`framework/prometheus/prometheus.c`.  A text is the list of its bytes, without the terminating zero.  Numbers of type `uint32_t` are
reduced modulo 2^32.  What `snprintf` makes of a value with `"%f"` is a parameter.
-/
namespace Np.Prom

abbrev Text := List Nat

/-- `struct prometheus_label_s`, framework/prometheus/prometheus.h:17-20. -/
structure Label where
  name : Text
  value : Text
  deriving DecidableEq

/-- The parts of `struct prometheus_metric_s`, framework/prometheus/prometheus.c:28-40, that are printed.  `value` is what `"%f"` makes
of the value, `stamp` the decimal digits of `time_ms`, if that is not zero. -/
structure Metric where
  name : Text
  labels : List Label
  value : Text
  stamp : Option Text
  deriving DecidableEq

def u32 : Nat := 2 ^ 32

/-- `strnlen(s, 255)`. -/
def len255 (t : Text) : Nat := min t.length 255

/-- The loop over the labels, framework/prometheus/prometheus.c:280-293 and 327-340. -/
def labelsSize : List Label → Nat
  | [] => 0
  | l :: r => len255 l.name + 3 + len255 l.value + (if r = [] then 0 else 1) + labelsSize r

/-- What is reserved for one metric, framework/prometheus/prometheus.c:274-295 and 321-342. -/
def metricSize (m : Metric) : Nat :=
  len255 m.name + 21 + (if m.stamp.isSome then 14 else 0) + (if m.labels = [] then 0 else 2) + labelsSize m.labels + 1

def sizes : List Metric → Nat
  | [] => 0
  | m :: r => metricSize m + sizes r

/-- The computation of `size` in `prometheus_format`, framework/prometheus/prometheus.c:313-344, and `prometheus_format_size`, 263-300 (which
uses a `size_t`). -/
def formatSize (reg : List Metric) : Nat := 1 + sizes reg

/-! ## Printing -/

/-- `{` `}` `,` `=` `"` space and newline. -/
def lbrace : Nat := 123
def rbrace : Nat := 125
def comma : Nat := 44
def eq : Nat := 61
def quote : Nat := 34
def space : Nat := 32
def newline : Nat := 10

/-- The output for the labels, framework/prometheus/prometheus.c:362-377, one piece per call of `snprintf`. -/
def labelPieces : List Label → List Text
  | [] => []
  | l :: r => (l.name ++ [eq, quote] ++ l.value ++ [quote]) :: ((if r = [] then [] else [[comma]]) ++ labelPieces r)

/-- The output for one metric, framework/prometheus/prometheus.c:350-397. -/
def metricPieces (m : Metric) : List Text :=
  [m.name] ++ (if m.labels = [] then [] else [[lbrace]]) ++ labelPieces m.labels ++ (if m.labels = [] then [] else [[rbrace]]) ++
    [space :: m.value] ++ (match m.stamp with | some t => [space :: t] | none => []) ++ [[newline]]

def pieces : List Metric → List Text
  | [] => []
  | m :: r => metricPieces m ++ pieces r

/-- The memory for the text by offset, the variables `ret_pointer` and `size`, and one more than the largest offset written to. -/
structure Out where
  mem : Nat → Nat
  ptr : Nat
  size : Nat
  high : Nat

/-- `ret_pointer += snprintf(ret + ret_pointer, size, …); size -= ret_pointer`.  A bound above `INT_MAX` is taken as it is, as glibc
does. -/
def put (o : Out) (t : Text) : Out :=
  let n := min t.length (o.size - 1)
  { mem := fun i => if o.size = 0 ∨ i < o.ptr then o.mem i else if i < o.ptr + n then t.getD (i - o.ptr) 0 else if i = o.ptr + n then 0 else o.mem i,
    ptr := (o.ptr + t.length) % u32,
    size := (o.size + (u32 - (o.ptr + t.length) % u32)) % u32,
    high := if o.size = 0 then o.high else max o.high (o.ptr + n + 1) }

/-- `prometheus_format`, framework/prometheus/prometheus.c:304-403: the size of the memory and what has been written.  `fresh` is the
content of the memory from `malloc`. -/
def format (fresh : Nat → Nat) (reg : List Metric) : Nat × Out :=
  let cap := formatSize reg % u32
  let o := (pieces reg).foldl put { mem := fresh, ptr := 0, size := cap, high := 0 }
  let last := (o.size + (u32 - 1)) % u32
  (cap, { o with mem := fun i => if i = last then 0 else o.mem i, high := max o.high (last + 1) })

/-- The text a reader finds in the memory: everything before the first zero. -/
def readText (mem : Nat → Nat) : Nat → Nat → Text
  | 0, _ => []
  | k + 1, i => if mem i = 0 then [] else mem i :: readText mem k (i + 1)

/-! ## The lock of the registry -/

inductive Call
  /-- `prometheus_register_metric`, framework/prometheus/prometheus.c:109-127, and `prometheus_metric_add_label`, 159-178 -/
  | register
  /-- `prometheus_format`, 304-403 -/
  | format
  /-- `prometheus_format_size`, 263-300: the lock taken is not the one released -/
  | formatSize

/-- How often `w_lock`, a recursive mutex, is held after the call. -/
def lockStep (held : Nat) : Call → Nat
  | .register => held + 1 - 1
  | .format => held + 1 - 1
  | .formatSize => held + 1

def lockRun : Nat → List Call → Nat
  | h, [] => h
  | h, c :: r => lockRun (lockStep h c) r

/-- `_np_http_handle_metrics`, src/np_statistics.c:133-145. -/
def pageRequest : List Call := [.format, .formatSize]

/-! ## Values -/

/-- Rounding of a natural number to the 24 bits of a `float`, to nearest, ties to even. -/
def rnd (n : Nat) : Nat :=
  if n < 2 ^ 24 then n
  else
    let e := Nat.log2 n - 23
    let q := n / 2 ^ e
    let r := n % 2 ^ e
    (if 2 * r > 2 ^ e ∨ (2 * r = 2 ^ e ∧ q % 2 = 1) then q + 1 else q) * 2 ^ e

/-- Operations on a metric.  `inc` and `set` are given integers, as in all uses in the library (numbers of messages, bytes, …). -/
inductive Op
  | inc (n : Nat)
  | set (n : Nat)
  /-- `prometheus_metric_get`, framework/prometheus/prometheus.c:253-261 -/
  | get

/-- `prometheus_metric_inc` and `prometheus_metric_set`, framework/prometheus/prometheus.c:231-251, the argument is converted to `float`.
They run in the lock of the metric. -/
def step (v : Nat) : Op → Nat
  | .inc n => rnd (v + rnd n)
  | .set n => rnd n
  | .get => v

def run : Nat → List Op → Nat
  | v, [] => v
  | v, o :: r => run (step v o) r

/-! ## Rates -/

/-- `prometheus_sub_metric_time_config`, framework/prometheus/prometheus.c:43-49, and the last rate that was set: the increase and the
time it is related to (the value is their quotient, times the interval). -/
structure Rate where
  interval : Nat
  lastUpdate : Nat
  lastValue : Nat
  reported : Option (Int × Nat)

/-- `prometheus_register_sub_metric_time`, framework/prometheus/prometheus.c:129-158, for a metric with this value. -/
def Rate.register (intervalSec value : Nat) : Rate := { interval := intervalSec * 1000, lastUpdate := 0, lastValue := value, reported := none }

/-- `__prometheus_metric_update_sub_metrics`, framework/prometheus/prometheus.c:208-229, for one rate. -/
def Rate.update (r : Rate) (value now : Nat) : Rate :=
  if r.lastUpdate + r.interval ≤ now then
    { r with reported := some ((value : Int) - r.lastValue, now - r.lastUpdate), lastUpdate := now, lastValue := value }
  else r

/-- A metric with a rate: every operation happens at a time. -/
def rateStep (s : Nat × Rate) (o : Nat × Op) : Nat × Rate := (step s.1 o.2, s.2.update (step s.1 o.2) o.1)

def rateRun : Nat × Rate → List (Nat × Op) → Nat × Rate
  | s, [] => s
  | s, o :: r => rateRun (rateStep s o) r

/-! ## Labels -/

/-- A metric as far as its labels are concerned: its own, the newest first, and those of its rates. -/
structure Labelled where
  labels : List Label
  rates : List (List Label)
  deriving DecidableEq

/-- `prometheus_metric_add_label`, framework/prometheus/prometheus.c:160-179. -/
def addLabel (m : Labelled) (l : Label) : Labelled := { labels := l :: m.labels, rates := m.rates.map (l :: ·) }

def setValue (l : Label) (ls : List Label) : List Label := ls.map fun x => if x.name = l.name then { x with value := l.value } else x

/-- `prometheus_metric_replace_label`, framework/prometheus/prometheus.c:180-206, for a metric without rates. -/
def replaceIn (l : Label) (ls : List Label) : List Label := if ls.any (fun x => x.name = l.name) then setValue l ls else l :: ls

/-- `prometheus_metric_replace_label`, framework/prometheus/prometheus.c:180-206. -/
def replaceLabel (m : Labelled) (l : Label) : Labelled :=
  if m.labels.any (fun x => x.name = l.name) then { labels := setValue l m.labels, rates := m.rates.map (replaceIn l) } else addLabel m l

/-- The labels `prometheus_register_sub_metric_time`, framework/prometheus/prometheus.c:129-157, gives to a new rate: the interval, and
copies of those of the metric, each put in front. -/
def addRate (m : Labelled) (interval : Label) : Labelled := { m with rates := (m.labels.reverse ++ [interval]) :: m.rates }

end Np.Prom

import Verif.Prom.Lemmas

/-!
# Metrics: the properties
-/
namespace Np.Prom
open _root_.Np.Prom.Spec

/-! ## C131: rendering the page stays in its memory -/

/-- With nothing registered the page is empty, and one byte is used of the one reserved. -/
theorem C131_rendering_in_bounds_partial (fresh : Nat → Nat) :
    (format fresh []).1 = 1 ∧ (format fresh []).2.high = 1 ∧ (format fresh []).2.mem 0 = 0 :=
  ⟨rfl, by simp [format, pieces, formatSize, sizes, u32], by simp [format, pieces, formatSize, sizes, u32]⟩

/-- With anything registered the program writes behind the memory it has reserved: the last write is past its end, whatever the metrics. -/
theorem C131_rendering_in_bounds_refuted (fresh : Nat → Nat) (reg : List Metric) (hne : reg ≠ []) (h : ∀ m ∈ reg, Fits m ∧ Usual m)
    (hs : Small reg) : (format fresh reg).1 < (format fresh reg).2.high := by
  obtain ⟨h1, h2⟩ := last_outside fresh reg hne h hs
  simp only [format, Nat.mod_eq_of_lt h1]
  omega

/-- "np_uptime" and a counter with the value 1.000000 -/
def uptime : Metric :=
  { name := [110, 112, 95, 117, 112, 116, 105, 109, 101], labels := [], value := [49, 46, 48, 48, 48, 48, 48, 48],
    stamp := some [49, 55, 48, 48, 48, 48, 48, 48, 48, 48, 48, 48, 48] }

def labelled : Metric :=
  { name := [110, 112, 95, 105, 110], labels := [⟨[105, 100], [97, 98]⟩, ⟨[118], [49]⟩], value := [50, 46, 48, 48, 48, 48, 48, 48],
    stamp := none }

instance (m : Metric) : Decidable (Fits m) := by unfold Fits; infer_instance
instance (m : Metric) : Decidable (Usual m) := by
  unfold Usual
  cases m.stamp with
  | none => exact decidable_of_iff (2 ≤ m.name.length ∧ 8 ≤ m.value.length) (by simp)
  | some t => exact decidable_of_iff (2 ≤ m.name.length ∧ 8 ≤ m.value.length ∧ 1 ≤ t.length) (by simp)
instance (m : Metric) : Decidable (Short m) := by
  unfold Short
  cases m.stamp with
  | none => exact decidable_of_iff (m.value.length ≤ 20) (by simp)
  | some t => exact decidable_of_iff (m.value.length ≤ 20 ∧ t.length ≤ 13) (by simp)
instance (reg : List Metric) : Decidable (Small reg) := by unfold Small; infer_instance
instance roomyDec : (size ptr : Nat) → (ts : List Text) → Decidable (RoomyFrom size ptr ts)
  | _, _, [] => .isTrue trivial
  | size, ptr, t :: r =>
    have := roomyDec ((size + (2 ^ 32 - (ptr + t.length))) % 2 ^ 32) (ptr + t.length) r
    by unfold RoomyFrom; infer_instance

example : (∀ m ∈ [uptime, labelled], Fits m ∧ Usual m) ∧ Small [uptime, labelled] := by decide

/-! ## C132: the page has a line for every metric -/

/-- If the bound given for each piece is large enough, the memory holds the page and the terminating zero. -/
theorem C132_page_complete_partial (fresh : Nat → Nat) (reg : List Metric) (hne : reg ≠ [])
    (h : ∀ m ∈ reg, Fits m ∧ Usual m ∧ Short m) (hs : Small reg) (hr : Roomy reg) :
    (∀ i, i < (page reg).length → (format fresh reg).2.mem i = (page reg).getD i 0) ∧
      (format fresh reg).2.mem (page reg).length = 0 := by
  obtain ⟨h1, h2⟩ := last_outside fresh reg hne (fun m hm => ⟨(h m hm).1, (h m hm).2.1⟩) hs
  have h3 := page_le reg fun m hm => ⟨(h m hm).1, (h m hm).2.2⟩
  have hp : pieces reg ≠ [] := by
    cases reg with
    | nil => exact absurd rfl hne
    | cons m r => simp [pieces, metricPieces]
  have hl : 0 + total (pieces reg) < u32 := by
    rw [pieces_total, Nat.zero_add]
    simp only [formatSize] at h1
    omega
  obtain ⟨_, m2, m3, _⟩ := fold_mem (pieces reg) { mem := fresh, ptr := 0, size := formatSize reg, high := 0 } hl hr
  have m3 := m3 hp
  simp only [Nat.zero_add, pieces_total, pieces_text] at m2 m3
  simp only [format, Nat.mod_eq_of_lt h1]
  simp only [formatSize] at h2
  constructor
  · intro i hi
    rw [if_neg (by simp only [formatSize]; omega)]
    exact m2 i hi
  · rw [if_neg (by simp only [formatSize]; omega)]
    exact m3

/-- A name of 30 characters without a time fits. -/
def roomySample : Metric := { name := List.replicate 30 97, labels := [], value := [49, 46, 48, 48, 48, 48, 48, 48], stamp := none }

example : (∀ m ∈ [roomySample], Fits m ∧ Usual m ∧ Short m) ∧ Small [roomySample] ∧ Roomy [roomySample] :=
  ⟨by decide, by decide, by unfold Roomy; decide +kernel⟩

/-- A name of 20 characters and a time: the time is cut, and what follows is lost to a reader of the text. -/
def cutSample : Metric :=
  { name := List.replicate 20 97, labels := [], value := [49, 46, 48, 48, 48, 48, 48, 48],
    stamp := some [49, 55, 48, 48, 48, 48, 48, 48, 48, 48, 48, 48, 48] }

theorem C132_page_complete_refuted :
    readText (format (fun _ => 0) [cutSample]).2.mem 100 0 = (page [cutSample]).take 36 ∧ (page [cutSample]).length = 44 := by
  decide +kernel

/-! ## C133: the length announced for the page is the length of the text -/

/-- The length is enough for the text and the terminating zero, as long as values have at most 20 characters and times at most 13. -/
theorem C133_announced_length_partial (reg : List Metric) (h : ∀ m ∈ reg, Fits m ∧ Short m) : (page reg).length < formatSize reg := by
  have := page_le reg h
  simp only [formatSize]
  omega

example : ∀ m ∈ [uptime, labelled], Fits m ∧ Short m := by decide

/-- It is never the length of the text: in a registry of usual metrics each value of less than 20 characters adds the difference, and the
bytes sent behind the text are what was in the memory before. -/
theorem C133_announced_length_refuted (fresh : Nat → Nat) (reg : List Metric) (hne : reg ≠ [])
    (h : ∀ m ∈ reg, Fits m ∧ Usual m ∧ Short m) (hs : Small reg) (hr : Roomy reg) (i : Nat) (h1 : (page reg).length < i)
    (h2 : i < formatSize reg) : (format fresh reg).2.mem i = fresh i := by
  obtain ⟨c1, c2⟩ := last_outside fresh reg hne (fun m hm => ⟨(h m hm).1, (h m hm).2.1⟩) hs
  have h3 := page_le reg fun m hm => ⟨(h m hm).1, (h m hm).2.2⟩
  have hl : 0 + total (pieces reg) < u32 := by
    rw [pieces_total, Nat.zero_add]
    simp only [formatSize] at c1
    omega
  obtain ⟨_, _, _, m4⟩ := fold_mem (pieces reg) { mem := fresh, ptr := 0, size := formatSize reg, high := 0 } hl hr
  simp only [Nat.zero_add, pieces_total] at m4
  simp only [format, Nat.mod_eq_of_lt c1]
  rw [if_neg (by omega)]
  exact m4 i h1

example : (page [roomySample]).length < 50 ∧ 50 < formatSize [roomySample] := by decide

/-- A value of 10^13 (ten terabytes of traffic) is longer than what is reserved: the text does not fit in its memory. -/
theorem C133_announced_length_refuted_big (m : Metric) (hl : m.labels = []) (hf : Fits m) (hs : m.stamp = none) (hv : 21 ≤ m.value.length) :
    formatSize [m] ≤ (page [m]).length := by
  have := hf.1
  simp [formatSize, sizes, metricSize, page, line, hl, hs, len255, labelsSize]
  omega

/-- "10000000000000.000000" -/
example : (21 : Nat) ≤ ([49, 48, 48, 48, 48, 48, 48, 48, 48, 48, 48, 48, 48, 48, 46, 48, 48, 48, 48, 48, 48] : Text).length := by decide

/-! ## C134: asking for the page leaves the registry usable for other threads -/

/-- Registering and rendering release the lock. -/
theorem C134_registry_released_partial (cs : List Call) (h : ∀ c ∈ cs, c ≠ .formatSize) (n : Nat) : lockRun n cs = n := by
  induction cs generalizing n with
  | nil => rfl
  | cons c r ih =>
    have : lockStep n c = n := by
      have := h c (by simp)
      cases c <;> simp [lockStep] at *
    simp only [lockRun, this]
    exact ih (fun x hx => h x (by simp [hx])) n

example : ∀ c ∈ [Call.register, .format, .register], c ≠ .formatSize := by simp

/-- After a request for the page has been answered the lock is still held, once more with every request, and no other call gives it
back. -/
theorem C134_registry_released_refuted (before after : List Call) : 0 < lockRun 0 (before ++ pageRequest ++ after) := by
  have mono : ∀ (cs : List Call) (n : Nat), n ≤ lockRun n cs := by
    intro cs
    induction cs with
    | nil => intro n; exact Nat.le_refl n
    | cons c r ih =>
      intro n
      have h : n ≤ lockStep n c := by cases c <;> simp [lockStep]
      exact Nat.le_trans h (ih _)
  have app : ∀ (a b : List Call) (n : Nat), lockRun n (a ++ b) = lockRun (lockRun n a) b := by
    intro a
    induction a with
    | nil => intro b n; rfl
    | cons c r ih => intro b n; exact ih b _
  rw [app, app]
  refine Nat.lt_of_lt_of_le ?_ (mono after _)
  show 0 < lockRun (lockRun 0 before) [.format, .formatSize]
  simp [lockRun, lockStep]

/-! ## C135: a counter counts -/

/-- While neither the value nor an argument exceeds 2^24, the value is the exact one, whatever the history. -/
theorem C135_counter_exact_partial (os : List Op) (v : Nat) (h : Below (2 ^ 24) v os) : run v os = exact v os := run_exact os v h

/-- Increments from several threads, in whatever order they happen, give the same value. -/
theorem C135_counter_order_partial (a b : List Nat) (hp : a.Perm b) (h : a.sum ≤ 2 ^ 24) :
    run 0 (a.map .inc) = a.sum ∧ run 0 (b.map .inc) = a.sum := by
  have key : ∀ (l : List Nat) (v : Nat), v + l.sum ≤ 2 ^ 24 → run v (l.map .inc) = v + l.sum := by
    intro l
    induction l with
    | nil => intro v _; rfl
    | cons n r ih =>
      intro v hv
      simp only [List.sum_cons] at hv ⊢
      show run (rnd (v + rnd n)) (r.map .inc) = _
      rw [rnd_exact n (by omega), rnd_exact _ (by omega), ih _ (by omega)]
      omega
  have hs : b.sum = a.sum := by
    clear h
    induction hp with
    | nil => rfl
    | cons x _ ih => simp_all
    | swap x y l => simp only [List.sum_cons]; omega
    | trans _ _ i1 i2 => simp_all
  have h1 := key a 0 (by omega)
  have h2 := key b 0 (by omega)
  omega

/-- At 2^24 a counter stops: no number of increments by one changes it any more. -/
theorem C135_counter_exact_refuted (k : Nat) :
    run (2 ^ 24) (List.replicate k (.inc 1)) = 2 ^ 24 ∧ exact (2 ^ 24) (List.replicate k (.inc 1)) = 2 ^ 24 + k := by
  constructor
  · induction k with
    | zero => rfl
    | succ k ih =>
      rw [List.replicate_succ]
      show run (rnd (2 ^ 24 + rnd 1)) _ = _
      have : rnd (2 ^ 24 + rnd 1) = 2 ^ 24 := by decide +kernel
      rw [this]
      exact ih
  · have : ∀ k v, exact v (List.replicate k (.inc 1)) = v + k := by
      intro k
      induction k with
      | zero => intro v; rfl
      | succ k ih => intro v; rw [List.replicate_succ]; show exact (v + 1) _ = _; rw [ih]; omega
    exact this k _

example : Below (2 ^ 24) 0 [.inc 5, .set 100, .get, .inc 1] ∧ exact 0 [.inc 5, .set 100, .get, .inc 1] = 101 := by
  simp [Below, exact]

/-! ## C136: a rate is the increase during the last interval -/

/-- After a report at time `u` with the value `x`, nothing is reported for an interval; the first operation at or after its end, at time
`now`, reports the increase since `x` for the time since `u`, and counts from there again. -/
theorem C136_rate_partial (v : Nat) (r : Rate) (quiet : List (Nat × Op)) (now : Nat) (o : Op)
    (hq : ∀ q ∈ quiet, q.1 < r.lastUpdate + r.interval) (hn : r.lastUpdate + r.interval ≤ now) :
    let value := run v (quiet.map (·.2) ++ [o])
    (rateRun (v, r) quiet).2.reported = r.reported ∧
      (rateRun (v, r) (quiet ++ [(now, o)])).2.reported = some ((value : Int) - r.lastValue, now - r.lastUpdate) ∧
      (rateRun (v, r) (quiet ++ [(now, o)])).2.lastUpdate = now ∧ (rateRun (v, r) (quiet ++ [(now, o)])).2.lastValue = value := by
  have h1 := rateRun_quiet quiet (v, r) hq
  have h2 := rateRun_value quiet (v, r)
  have h3 : run v (quiet.map (·.2) ++ [o]) = step (rateRun (v, r) quiet).1 o := by
    rw [h2]
    have : ∀ (a : List Op) (v : Nat), run v (a ++ [o]) = step (run v a) o := by
      intro a
      induction a with
      | nil => intro v; rfl
      | cons x r ih => intro v; exact ih _
    exact this _ v
  simp only
  rw [h1, rateRun_append, h3]
  refine ⟨rfl, ?_⟩
  show (Rate.update (rateRun (v, r) quiet).2 _ now).reported = _ ∧ (Rate.update (rateRun (v, r) quiet).2 _ now).lastUpdate = _ ∧
    (Rate.update (rateRun (v, r) quiet).2 _ now).lastValue = _
  rw [h1]
  simp only [Rate.update, if_pos hn, and_self]

example : let r : Rate := { interval := 1000, lastUpdate := 5000, lastValue := 7, reported := none }
    (∀ q ∈ [(5100, Op.inc 3), (5900, Op.inc 2)], q.1 < r.lastUpdate + r.interval) ∧ r.lastUpdate + r.interval ≤ 6000 ∧
      (rateRun (7, r) ([(5100, Op.inc 3), (5900, Op.inc 2)] ++ [(6000, .inc 1)])).2.reported = some (6, 1000) := by
  refine ⟨by simp, by simp, rfl⟩

/-- The first report comes with the first operation, and relates the increase to all the time since the start of the clock: fifty
messages in the first millisecond at 1.7·10^12 ms are reported as a rate of 50 in 1.7·10^12 ms. -/
theorem C136_rate_refuted (sec v : Nat) (now : Nat) (o : Op) (hn : sec * 1000 ≤ now) :
    (rateRun (v, Rate.register sec v) [(now, o)]).2.reported = some ((step v o : Nat) - (v : Int), now) := by
  show (Rate.update _ _ _).reported = _
  simp [Rate.update, Rate.register, hn]

example : (rateRun (0, Rate.register 1 0) [(1700000000000, .inc 50)]).2.reported = some (50, 1700000000000) := by
  rw [C136_rate_refuted 1 0 1700000000000 (.inc 50) (by decide)]
  simp [step, rnd]

/-! ## C137: replacing a label -/

/-- After replacing, the metric and all of its rates carry the new value under that name and no other, and the labels with other names
are unchanged: if the rates carry no label the metric does not carry itself. -/
theorem C137_replace_label_partial (m : Labelled) (l : Label)
    (h : valuesOf l.name m.labels = [] → ∀ r ∈ m.rates, valuesOf l.name r = []) :
    (∀ ls ∈ (replaceLabel m l).labels :: (replaceLabel m l).rates,
      valuesOf l.name ls ≠ [] ∧ ∀ v ∈ valuesOf l.name ls, v = l.value) ∧
    (∀ n, n ≠ l.name → valuesOf n (replaceLabel m l).labels = valuesOf n m.labels ∧
      (replaceLabel m l).rates.map (valuesOf n) = m.rates.map (valuesOf n)) := by
  have hadd : ∀ ls, valuesOf l.name ls = [] → valuesOf l.name (l :: ls) = [l.value] := by
    intro ls e
    have e' : ls.filter (fun x => decide (x.name = l.name)) = [] := by simpa [valuesOf] using e
    simp only [valuesOf, List.filter_cons, decide_true, if_true, e', List.map_cons, List.map_nil]
  have hadd2 : ∀ n, n ≠ l.name → ∀ ls, valuesOf n (l :: ls) = valuesOf n ls := by
    intro n hn ls
    have : ¬ l.name = n := fun e => hn e.symm
    simp [valuesOf, this]
  have hset : ∀ ls, valuesOf l.name ls ≠ [] →
      valuesOf l.name (setValue l ls) ≠ [] ∧ ∀ v ∈ valuesOf l.name (setValue l ls), v = l.value := by
    intro ls hne
    rw [valuesOf_setValue]
    refine ⟨fun e => ?_, fun v hv => List.eq_of_mem_replicate hv⟩
    have := congrArg List.length e
    simp only [List.length_replicate, List.length_nil] at this
    exact hne (List.length_eq_zero_iff.1 this)
  have hone : ∀ ls, valuesOf l.name ls = [] →
      valuesOf l.name (l :: ls) ≠ [] ∧ ∀ v ∈ valuesOf l.name (l :: ls), v = l.value := by
    intro ls e
    rw [hadd ls e]
    simp
  have hrep : ∀ ls, valuesOf l.name (replaceIn l ls) ≠ [] ∧ ∀ v ∈ valuesOf l.name (replaceIn l ls), v = l.value := by
    intro ls
    unfold replaceIn
    by_cases hc : ls.any (fun x => x.name = l.name) = true
    · rw [if_pos hc]; exact hset ls ((any_iff l ls).1 hc)
    · rw [if_neg hc]; exact hone ls (Classical.byContradiction fun e => hc ((any_iff l ls).2 e))
  have hrep2 : ∀ n, n ≠ l.name → ∀ ls, valuesOf n (replaceIn l ls) = valuesOf n ls := by
    intro n hn ls
    unfold replaceIn
    split
    · exact valuesOf_setValue_other l n hn ls
    · exact hadd2 n hn ls
  unfold replaceLabel
  by_cases hc : m.labels.any (fun x => x.name = l.name) = true
  · rw [if_pos hc]
    constructor
    · intro ls hls
      rcases List.mem_cons.1 hls with rfl | hls
      · exact hset _ ((any_iff l _).1 hc)
      · obtain ⟨r, _, rfl⟩ := List.mem_map.1 hls
        exact hrep r
    · intro n hn
      refine ⟨valuesOf_setValue_other l n hn _, ?_⟩
      rw [List.map_map]
      exact List.map_congr_left fun r _ => hrep2 n hn r
  · rw [if_neg hc]
    have h0 : valuesOf l.name m.labels = [] := Classical.byContradiction fun e => hc ((any_iff l _).2 e)
    constructor
    · intro ls hls
      rcases List.mem_cons.1 hls with rfl | hls
      · exact hone _ h0
      · obtain ⟨r, hr, rfl⟩ := List.mem_map.1 hls
        exact hone r (h h0 r hr)
    · intro n hn
      refine ⟨hadd2 n hn _, ?_⟩
      simp only [addLabel, List.map_map]
      exact List.map_congr_left fun r _ => hadd2 n hn r

/-- A metric with the label v="1" and a rate with the interval 60. -/
def rated : Labelled := addRate { labels := [⟨[118], [49]⟩], rates := [] } ⟨[105, 110, 116], [54, 48]⟩

example : valuesOf [118] rated.labels = [] → ∀ r ∈ rated.rates, valuesOf [118] r = [] := by decide
example : (replaceLabel rated ⟨[118], [50]⟩).rates = [[⟨[118], [50]⟩, ⟨[105, 110, 116], [54, 48]⟩]] := by decide

/-- A label with the name the rates use for their interval: afterwards a rate carries two values under that name. -/
theorem C137_replace_label_refuted :
    (replaceLabel rated ⟨[105, 110, 116], [49]⟩).rates.map (valuesOf [105, 110, 116]) = [[[49], [54, 48]]] := by decide

end Np.Prom

import Verif.Htp.Spec
/-! Helper lemmas. -/
namespace Np.Htp
open _root_.Np.Http (Text Hook)
open _root_.Np.Htp.Spec

theorem run_nil (p : P) : run p [] = (p, [], .cont) := by rw [run]

/-- Put earlier calls in front. -/
def pre (hs : List Hook) (x : P × List Hook × Flow) : P × List Hook × Flow := (x.1, hs ++ x.2.1, x.2.2)

theorem pre_nil (x) : pre [] x = x := rfl
theorem pre_pre (a b x) : pre a (pre b x) = pre (a ++ b) x := by simp [pre, List.append_assoc]

/-- One byte that is read on its own and after which the loop goes on. -/
theorem run_step {p q : P} {c : Nat} {cs : Text} {hs} (hb : p.buf.length < 8192) (hk : p.st.bulk = false) (h : step p c = (q, hs, .cont)) :
    run p (c :: cs) = pre hs (run q cs) := by
  rw [run, if_neg (by omega), if_neg (by simp [hk]), h]; rfl

/-- One byte that is read on its own and after which the loop ends. -/
theorem run_stop {p q : P} {c : Nat} {cs : Text} {hs f} (hb : p.buf.length < 8192) (hk : p.st.bulk = false) (h : step p c = (q, hs, f)) (hf : f ≠ .cont) :
    run p (c :: cs) = (q, hs, f) := by
  rw [run, if_neg (by omega), if_neg (by simp [hk]), h]; cases f <;> simp_all

theorem run_full {p : P} {c : Nat} {cs : Text} (hb : 8192 ≤ p.buf.length) : run p (c :: cs) = (p, [], .err) := by rw [run, if_pos hb]

theorem run_take {p q : P} {c : Nat} {cs : Text} {hs} (hb : p.buf.length < 8192) (hk : p.st.bulk = true) (h : take p (c :: cs) = (q, hs, .cont)) :
    run p (c :: cs) = pre hs (run q (cs.drop (min (cs.length + 1) p.len - 1))) := by
  rw [run, if_neg (by omega), if_pos hk, h]; rfl

theorem run_take_stop {p q : P} {c : Nat} {cs : Text} {hs f} (hb : p.buf.length < 8192) (hk : p.st.bulk = true) (h : take p (c :: cs) = (q, hs, f)) (hf : f ≠ .cont) :
    run p (c :: cs) = (q, hs, f) := by
  rw [run, if_neg (by omega), if_pos hk, h]; cases f <;> simp_all

/-! ## The request line -/

/-- The parser after the method. -/
def afterWord (p : P) (m : Nat) : P := { p with st := .spaces, buf := [], args := none, method := m, len := 0, orig := 0, chunked := false, trailing := false }

theorem run_word {p : P} (hp : Ready p) {w : Text} {m : Nat} (hw : (w, m) ∈ words) (rest : Text) :
    run p (w ++ [32] ++ rest) = pre [.msgBegin] (run (afterWord p m) rest) := by
  obtain ⟨st, buf, args, meth, len, orig, heval, chunked, trailing⟩ := p
  obtain ⟨h1, h2⟩ := hp; simp only at h1 h2; subst h1 h2
  simp only [words, List.mem_cons, Prod.mk.injEq, List.not_mem_nil, or_false] at hw
  rcases hw with h | h | h | h | h | h | h | h | h | h | h | h | h | h | h <;> obtain ⟨rfl, rfl⟩ := h <;>
    simp (decide := true) [run, step, pre, afterWord, St.bulk, P.add, methodOf]

/-- The states inside a uri. -/
def InUri (s : St) : Prop := s = .slash ∨ s = .check ∨ s = .uri

theorem step_path {p : P} {c : Nat} (hs : InUri p.st) (hc : c ≠ 32 ∧ c ≠ 63 ∧ c ≠ 13 ∧ c ≠ 10) :
    ∃ s, InUri s ∧ step p c = ({ p.add c with st := s }, [], .cont) := by
  obtain ⟨st, buf, args, meth, len, orig, heval, chunked, trailing⟩ := p
  obtain ⟨h1, h2, h3, h4⟩ := hc
  rcases hs with h | h | h <;> simp only at h <;> subst h <;> simp only [step, P.add, h1, h2, h3, h4, if_false, false_and] <;> (repeat' split) <;>
    first
    | exact ⟨.slash, Or.inl rfl, rfl⟩
    | exact ⟨.check, Or.inr (Or.inl rfl), rfl⟩
    | exact ⟨.uri, Or.inr (Or.inr rfl), rfl⟩

theorem inUri_bulk {s : St} (h : InUri s) : s.bulk = false := by rcases h with h | h | h <;> subst h <;> rfl

theorem run_path {p : P} (hs : InUri p.st) (t : Text) (ht : ∀ c ∈ t, c ≠ 32 ∧ c ≠ 63 ∧ c ≠ 13 ∧ c ≠ 10) (hl : p.buf.length + t.length ≤ 8192) (rest : Text) :
    ∃ s, InUri s ∧ run p (t ++ rest) = run { p with buf := p.buf ++ t, st := s } rest := by
  induction t generalizing p with
  | nil => exact ⟨p.st, hs, by simp⟩
  | cons c t ih =>
    obtain ⟨s, h1, h2⟩ := step_path hs (ht c (by simp))
    simp only [List.length_cons] at hl
    obtain ⟨s', h3, h4⟩ := ih (p := { p.add c with st := s }) h1 (fun d hd => ht d (by simp [hd])) (by simp [P.add]; omega)
    refine ⟨s', h3, ?_⟩
    rw [List.cons_append, run_step (by omega) (inUri_bulk hs) h2, pre_nil, h4]
    simp [P.add]

theorem run_query {p : P} (hs : p.st = .uri) {a : Nat} (ha : p.args = some a) (t : Text) (ht : ∀ c ∈ t, c ≠ 32 ∧ c ≠ 13 ∧ c ≠ 10)
    (hl : p.buf.length + t.length ≤ 8192) (rest : Text) : run p (t ++ rest) = run { p with buf := p.buf ++ t } rest := by
  induction t generalizing p with
  | nil => simp
  | cons c t ih =>
    simp only [List.length_cons] at hl
    obtain ⟨h1, h2, h3⟩ := ht c (by simp)
    have h : step p c = (p.add c, [], .cont) := by simp [step, hs, ha, h1, h2, h3]
    rw [List.cons_append, run_step (by omega) (by rw [hs]; rfl) h, pre_nil, ih (by simpa [P.add] using hs) (by simpa [P.add] using ha)
      (fun d hd => ht d (by simp [hd])) (by simp [P.add]; omega)]
    simp [P.add]

/-- The calls for the path and the arguments. -/
def uriHooks (r : Request) : List Hook := .path r.path :: r.msg.argHooks

/-- The request line after the method. -/
theorem run_uri {p : P} (hp : p.st = .spaces) (hb : p.buf = []) (ha : p.args = none) (hm : p.method ≠ 14) {r : Request} (hr : r.HeadFits) (rest : Text) :
    ∃ a, run p (r.path ++ r.tail ++ [32] ++ rest) = pre (uriHooks r) (run { p with st := .http09, buf := [], args := a } rest) := by
  obtain ⟨s, hs, hc⟩ := hr.path
  have hsz := hr.size
  have h1 : step p 47 = ({ p.add 47 with st := .slash }, [], .cont) := by simp [step, hp, hm]
  have hl : s.length + r.tail.length ≤ 8190 := by simp [hs] at hsz; omega
  obtain ⟨s', h2, h3⟩ := run_path (p := { p.add 47 with st := .slash }) (Or.inl rfl) s hc (by simp [P.add, hb]; omega) (r.tail ++ [32] ++ rest)
  have h4 : run p (r.path ++ r.tail ++ [32] ++ rest) = run { p with buf := r.path, st := s' } (r.tail ++ [32] ++ rest) := by
    have : r.path ++ r.tail ++ [32] ++ rest = 47 :: (s ++ (r.tail ++ [32] ++ rest)) := by simp [hs]
    rw [this, run_step (by simp [hb]) (by rw [hp]; rfl) h1, pre_nil, h3]
    simp [P.add, hb, hs]
  have hlp : r.path.length = s.length + 1 := by simp [hs]
  cases hq : r.query with
  | none =>
    have ht : r.tail = [] := by simp [Request.tail, hq]
    refine ⟨none, ?_⟩
    have h5 : step { p with buf := r.path, st := s' } 32 = ({ p with st := .http09, buf := [], args := none }, [.path r.path], .cont) := by
      rcases h2 with h | h | h <;> subst h <;> simp [step, usual, P.endUri, ha]
    rw [h4, ht, List.nil_append, List.singleton_append, run_step (by simp; omega) (inUri_bulk h2) h5]
    simp [uriHooks, Np.Http.Msg.argHooks, Request.msg, hq]
  | some q =>
    have ht : r.tail = 63 :: q := by simp [Request.tail, hq]
    refine ⟨some (r.path.length + 1), ?_⟩
    have h5 : step { p with buf := r.path, st := s' } 63 =
        ({ p with buf := r.path ++ [63], st := .uri, args := some (r.path.length + 1) }, [.path r.path], .cont) := by
      rcases h2 with h | h | h <;> subst h <;> simp [step, usual, P.add, ha]
    have h6 : step { p with buf := r.path ++ [63] ++ q, st := .uri, args := some (r.path.length + 1) } 32 =
        ({ p with st := .http09, buf := [], args := some (r.path.length + 1) }, [.args q], .cont) := by
      simp [step, usual, P.endUri, List.drop_append]
    rw [ht] at hl; simp only [List.length_cons] at hl
    rw [h4, ht, List.cons_append, List.cons_append, run_step (by simp; omega) (inUri_bulk h2) h5, List.append_assoc,
      run_query rfl rfl q (hr.query q hq) (by simp; omega), List.singleton_append, run_step (by simp; omega) rfl h6, pre_pre]
    simp [uriHooks, Np.Http.Msg.argHooks, Request.msg, hq]

theorem run_version {p : P} (hp : p.st = .http09) (hb : p.buf = []) {m : Nat} (hm : m = 48 ∨ m = 49) (rest : Text) :
    run p ([72, 84, 84, 80, 47, 49, 46, m, 13, 10] ++ rest) = pre [.hdrsBegin] (run { p with st := .done } rest) := by
  obtain ⟨st, buf, args, meth, len, orig, heval, chunked, trailing⟩ := p
  simp only at hp hb; subst hp hb
  rcases hm with rfl | rfl <;> simp (decide := true) [run, step, pre, St.bulk, P.expect, P.digit]

/-! ## The numbers -/

theorem toNum_ok (t : Text) (ht : Digits t) : ∀ a : Nat, (a + 1) * 10 ^ t.length ≤ 10 ^ 19 → toNum a t = some (t.foldl (fun a c => 10 * a + (c - 48)) a) := by
  induction t with
  | nil => intro a _; rfl
  | cons c t ih =>
    intro a ha
    have h1 := ht c (by simp)
    have hle : 10 * (a + 1) ≤ 10 ^ 19 := by
      have h0 : 1 ≤ 10 ^ t.length := Nat.one_le_pow _ _ (by omega)
      have h2 : (a + 1) * 10 ^ (t.length + 1) = 10 * (a + 1) * 10 ^ t.length := by rw [Nat.pow_succ]; ac_rfl
      rw [List.length_cons, h2] at ha
      calc 10 * (a + 1) = 10 * (a + 1) * 1 := by omega
        _ ≤ 10 * (a + 1) * 10 ^ t.length := Nat.mul_le_mul_left _ h0
        _ ≤ _ := ha
    have hlt : a * 10 + (c - 48) < 2 ^ 64 := by
      have : (10 : Nat) ^ 19 < 2 ^ 64 := by decide
      omega
    rw [toNum, if_neg (by omega), Nat.mod_eq_of_lt hlt, if_neg (by omega), List.foldl_cons]
    have e : 10 * a + (c - 48) = a * 10 + (c - 48) := by omega
    rw [e]
    refine ih (fun d hd => ht d (by simp [hd])) _ ?_
    have h2 : (a + 1) * 10 ^ (t.length + 1) = (a + 1) * 10 * 10 ^ t.length := by rw [Nat.pow_succ]; ac_rfl
    rw [List.length_cons, h2] at ha
    exact Nat.le_trans (Nat.mul_le_mul_right _ (by omega)) ha

theorem trim_digits (t : Text) (ht : Digits t) : (t.reverse.dropWhile (fun c => c == 32 || c == 9)).reverse = t := by
  have : t.reverse.dropWhile (fun c => c == 32 || c == 9) = t.reverse := by
    cases h : t.reverse with
    | nil => rfl
    | cons c cs =>
      have hc : c ∈ t := by have : c ∈ t.reverse := by rw [h]; simp
                            simpa using this
      have := ht c hc
      rw [List.dropWhile_cons, if_neg]
      simp; omega
  rw [this, List.reverse_reverse]

theorem strToNum_ok (t : Text) (ht : Digits t) (hl : t.length ≤ 19) : strToNum t = some (number t) := by
  unfold strToNum
  simp only [trim_digits t ht]
  rw [if_neg (by omega)]
  refine toNum_ok t ht 0 ?_
  have : 10 ^ t.length ≤ 10 ^ 19 := Nat.pow_le_pow_right (by omega) hl
  omega

/-! ## The headers -/

theorem lower_small : lower = small := rfl

theorem evalOf_length {k : Text} (h : IsLength k) : evalOf k = .contentLength := by
  unfold evalOf; rw [if_pos]; rw [lower_small]; exact h

theorem evalOf_none {k : Text} (h : ¬ IsLength k) (h' : ¬ IsEncoding k) : evalOf k = .none := by
  unfold evalOf; rw [if_neg, if_neg]
  · rw [lower_small]; exact h'
  · rw [lower_small]; exact h

theorem run_key {p : P} (hp : p.st = .hkey) (t : Text) (ht : ∀ c ∈ t, c ≠ 58 ∧ c ≠ 13 ∧ c ≠ 10) (hl : p.buf.length + t.length ≤ 8192) (rest : Text) :
    run p (t ++ rest) = run { p with buf := p.buf ++ t } rest := by
  induction t generalizing p with
  | nil => simp
  | cons c t ih =>
    simp only [List.length_cons] at hl
    obtain ⟨h1, h2, h3⟩ := ht c (by simp)
    have h : step p c = (p.add c, [], .cont) := by simp [step, hp, h1, h2, h3]
    rw [List.cons_append, run_step (by omega) (by rw [hp]; rfl) h, pre_nil, ih (by simpa [P.add] using hp)
      (fun d hd => ht d (by simp [hd])) (by simp [P.add]; omega)]
    simp [P.add]

theorem run_val {p : P} (hp : p.st = .hval) (t : Text) (ht : ∀ c ∈ t, c ≠ 13 ∧ c ≠ 10) (hl : p.buf.length + t.length ≤ 8192) (rest : Text) :
    run p (t ++ rest) = run { p with buf := p.buf ++ t } rest := by
  induction t generalizing p with
  | nil => simp
  | cons c t ih =>
    simp only [List.length_cons] at hl
    obtain ⟨h2, h3⟩ := ht c (by simp)
    have h : step p c = (p.add c, [], .cont) := by simp [step, hp, h2, h3]
    rw [List.cons_append, run_step (by omega) (by rw [hp]; rfl) h, pre_nil, ih (by simpa [P.add] using hp)
      (fun d hd => ht d (by simp [hd])) (by simp [P.add]; omega)]
    simp [P.add]

/-- The declared length after one more header. -/
def lenAfter (n : Nat) (h : Text × Text) : Nat := if IsLength h.1 then number h.2 else n

/-- A header line after its first byte. -/
theorem run_line {p : P} {k v : Text} {c : Nat} (hk : HdrFits (c :: k, v)) (ht : p.trailing = false) (hlo : p.orig = p.len) (rest : Text) :
    ∃ e, run { p with st := .hkey, buf := [c] } (k ++ [58, 32] ++ v ++ [13, 10] ++ rest) =
      pre [.hdrKey (c :: k)]
        (run { p with st := .hdone, buf := v, heval := e, len := lenAfter p.len (c :: k, v), orig := lenAfter p.len (c :: k, v) } rest) := by
  obtain ⟨⟨_, hk9, hkl, hkc⟩, ⟨hv0, hv32, hvl, hvc⟩, henc, hlen⟩ := hk
  simp only at hk9 hkl hkc hv0 hv32 hvl hvc henc hlen
  obtain ⟨d, v', rfl⟩ : ∃ d v', v = d :: v' := by cases v with
    | nil => exact absurd rfl hv0
    | cons d v' => exact ⟨d, v', rfl⟩
  refine ⟨evalOf (c :: k), ?_⟩
  have hd := hvc d (by simp)
  have hd32 : d ≠ 32 := by intro h; apply hv32; simp [h]
  simp only [List.length_cons] at hkl hvl
  have e1 : k ++ [58, 32] ++ (d :: v') ++ [13, 10] ++ rest = k ++ (58 :: 32 :: d :: (v' ++ (13 :: 10 :: rest))) := by simp
  rw [e1, run_key rfl k (fun x hx => hkc x (by simp [hx])) (by simp; omega)]
  have s1 : step { p with st := .hkey, buf := [c] ++ k } 58 = ({ p with st := .hspace, buf := [], heval := evalOf (c :: k) }, [.hdrKey (c :: k)], .cont) := by
    simp [step]
  rw [run_step (by simp; omega) rfl s1]
  have s2 : step { p with st := .hspace, buf := [], heval := evalOf (c :: k) } 32 = ({ p with st := .hspace, buf := [], heval := evalOf (c :: k) }, [], .cont) := by
    simp [step]
  rw [run_step (by simp) rfl s2, pre_nil]
  have s3 : step { p with st := .hspace, buf := [], heval := evalOf (c :: k) } d = ({ p with st := .hval, buf := [d], heval := evalOf (c :: k) }, [], .cont) := by
    simp [step, hd, hd32, P.add]
  rw [run_step (by simp) rfl s3, pre_nil, run_val rfl v' (fun x hx => hvc x (by simp [hx])) (by simp; omega)]
  have s4 : step { p with st := .hval, buf := [d] ++ v', heval := evalOf (c :: k) } 13 =
      ({ p with st := .halmost, buf := d :: v', heval := evalOf (c :: k), len := lenAfter p.len (c :: k, d :: v'), orig := lenAfter p.len (c :: k, d :: v') },
        [], .cont) := by
    by_cases hL : IsLength (c :: k)
    · obtain ⟨hd1, hd2⟩ := hlen hL
      simp [step, P.endVal, evalOf_length hL, strToNum_ok _ hd1 hd2, lenAfter, hL]
    · simp [step, P.endVal, evalOf_none hL henc, lenAfter, hL, hlo]
  rw [run_step (by simp; omega) rfl s4, pre_nil]
  have s5 : ∀ q : P, q.st = .halmost → q.trailing = false → step q 10 = ({ q with st := .hdone }, [], .cont) := by
    intro q h1 h2; simp [step, h1, h2]
  refine congrArg (pre _) ?_
  refine run_step ?_ ?_ (s5 _ ?_ ?_)
  · simp; omega
  · rfl
  · rfl
  · exact ht

/-- The calls for headers. -/
def hdrHooks (hs : List (Text × Text)) : List Hook := hs.flatMap (fun h => [.hdrKey h.1, .hdrVal h.2])

/-- The header lines after the first one, up to the LF that ends them. -/
theorem run_more (hs : List (Text × Text)) (hh : ∀ h ∈ hs, HdrFits h) (rest : Text) : ∀ p : P, p.st = .hdone → p.trailing = false → p.orig = p.len →
    p.buf.length ≤ 8191 →
    ∃ q : P, q.st = .lalmost ∧ q.trailing = false ∧ q.chunked = p.chunked ∧ q.method = p.method ∧ q.len = hs.foldl lenAfter p.len ∧ q.orig = q.len ∧
      q.buf.length ≤ 8191 ∧ run p (hs.flatMap line ++ 13 :: rest) = pre (.hdrVal p.buf :: hdrHooks hs) (run q rest) := by
  induction hs with
  | nil =>
    intro p h1 h2 h3 h4
    refine ⟨{ p with st := .lalmost }, rfl, h2, rfl, rfl, rfl, h3, h4, ?_⟩
    rw [List.flatMap_nil, List.nil_append, run_step (q := { p with st := .lalmost }) (by omega) (by rw [h1]; rfl) (by simp [step, h1]; rfl)]
    rfl
  | cons h hs ih =>
    intro p h1 h2 h3 h4
    obtain ⟨k, v⟩ := h
    have hf := hh (k, v) (by simp)
    have hf' := hf
    obtain ⟨⟨hk0, hk9, hkl, hkc⟩, ⟨_, _, hvl, _⟩, _, _⟩ := hf'
    simp only at hk0 hk9 hkl hkc hvl
    obtain ⟨c, k, rfl⟩ : ∃ c k', k = c :: k' := by cases k with
      | nil => exact absurd rfl hk0
      | cons c k => exact ⟨c, k, rfl⟩
    have hc := hkc c (by simp)
    have hc9 : c ≠ 9 := by intro h; apply hk9; simp [h]
    have s1 : step p c = ({ p with st := .hkey, buf := [c] }, [.hdrVal p.buf], .cont) := by simp [step, h1, hc, hc9]
    obtain ⟨e, h5⟩ := run_line hf h2 h3 (hs.flatMap line ++ 13 :: rest)
    obtain ⟨q, q1, q2, q3, q4, q5, q6, q7, q8⟩ := ih (fun h hm => hh h (by simp [hm]))
      { p with st := .hdone, buf := v, heval := e, len := lenAfter p.len (c :: k, v), orig := lenAfter p.len (c :: k, v) } rfl h2 rfl hvl
    refine ⟨q, q1, q2, q3, q4, q5, q6, q7, ?_⟩
    have e1 : (((c :: k, v) :: hs).flatMap line ++ 13 :: rest) = c :: (k ++ [58, 32] ++ v ++ [13, 10] ++ (hs.flatMap line ++ 13 :: rest)) := by
      simp [line]
    rw [e1, run_step (by omega) (by rw [h1]; rfl) s1, h5, q8, pre_pre, pre_pre]
    rfl

/-- All header lines and the CR after them. -/
theorem run_headers (hs : List (Text × Text)) (hh : ∀ h ∈ hs, HdrFits h) (rest : Text) (p : P) (h1 : p.st = .done) (h2 : p.trailing = false)
    (h3 : p.orig = p.len) (h4 : p.buf.length ≤ 8191) :
    ∃ q : P, q.st = .lalmost ∧ q.trailing = false ∧ q.chunked = p.chunked ∧ q.method = p.method ∧ q.len = hs.foldl lenAfter p.len ∧ q.orig = q.len ∧
      q.buf.length ≤ 8191 ∧ run p (hs.flatMap line ++ 13 :: rest) = pre (hdrHooks hs) (run q rest) := by
  cases hs with
  | nil =>
    refine ⟨{ p with st := .lalmost }, rfl, h2, rfl, rfl, rfl, h3, h4, ?_⟩
    rw [List.flatMap_nil, List.nil_append, run_step (q := { p with st := .lalmost }) (by omega) (by rw [h1]; rfl) (by simp [step, h1]; rfl)]
    rfl
  | cons h hs =>
    obtain ⟨k, v⟩ := h
    have hf := hh (k, v) (by simp)
    have hf' := hf
    obtain ⟨⟨hk0, hk9, hkl, hkc⟩, ⟨_, _, hvl, _⟩, _, _⟩ := hf'
    simp only at hk0 hk9 hkl hkc hvl
    obtain ⟨c, k, rfl⟩ : ∃ c k', k = c :: k' := by cases k with
      | nil => exact absurd rfl hk0
      | cons c k => exact ⟨c, k, rfl⟩
    have hc := hkc c (by simp)
    have s1 : step p c = ({ p with st := .hkey, buf := [c] }, [], .cont) := by simp [step, P.hdrStart, h1, hc]
    obtain ⟨e, h5⟩ := run_line hf h2 h3 (hs.flatMap line ++ 13 :: rest)
    obtain ⟨q, q1, q2, q3, q4, q5, q6, q7, q8⟩ := run_more hs (fun h hm => hh h (by simp [hm])) rest
      { p with st := .hdone, buf := v, heval := e, len := lenAfter p.len (c :: k, v), orig := lenAfter p.len (c :: k, v) } rfl h2 rfl hvl
    refine ⟨q, q1, q2, q3, q4, q5, q6, q7, ?_⟩
    have e1 : (((c :: k, v) :: hs).flatMap line ++ 13 :: rest) = c :: (k ++ [58, 32] ++ v ++ [13, 10] ++ (hs.flatMap line ++ 13 :: rest)) := by
      simp [line]
    rw [e1, run_step (by omega) (by rw [h1]; rfl) s1, h5, q8, pre_pre, pre_pre]
    rfl

theorem declared_foldl (hs : List (Text × Text)) (n : Nat) :
    hs.foldl lenAfter n = (((hs.filter (fun h => decide (IsLength h.1))).getLast?).map (fun h => number h.2)).getD n := by
  induction hs generalizing n with
  | nil => rfl
  | cons h hs ih =>
    rw [List.foldl_cons, ih, List.filter_cons]
    by_cases hL : IsLength h.1
    · simp only [lenAfter, hL, decide_true, if_true]
      cases hf : hs.filter (fun h => decide (IsLength h.1)) with
      | nil => rfl
      | cons a as =>
        rw [List.getLast?_cons_cons]
        cases hz : (a :: as).getLast? with
        | none => simp at hz
        | some z => rfl
    · simp [lenAfter, hL]

/-- The LF after the headers and the body. -/
theorem run_body {p : P} (h1 : p.st = .lalmost) (h2 : p.trailing = false) (h3 : p.chunked = false) (h4 : p.orig = p.len) (h5 : p.buf.length ≤ 8191)
    (b : Text) (hb : b.length = p.len) (rest : Text) :
    ∃ q : P, Ready q ∧ run p (10 :: (b ++ rest)) = (q, (if b = [] then [] else [.body b]) ++ [.complete p.method b.length], .ret) := by
  cases b with
  | nil =>
    have hl : p.len = 0 := by simpa using hb.symm
    refine ⟨{ p with buf := [], st := .start }, ⟨rfl, rfl⟩, ?_⟩
    rw [run_stop (q := { p with buf := [], st := .start }) (hs := [.complete p.method 0]) (f := .ret) (by omega) (by rw [h1]; rfl)
      (by simp [step, h1, h2, h3, hl, P.finish, h4]) (by simp)]
    rfl
  | cons c b =>
    have hl : p.len = b.length + 1 := by simpa using hb.symm
    refine ⟨{ p with buf := [], st := .start, len := 0 }, ⟨rfl, rfl⟩, ?_⟩
    rw [run_step (q := { p with buf := [], st := .body }) (hs := []) (by omega) (by rw [h1]; rfl) (by simp [step, h1, h2, h3, hl]), pre_nil, List.cons_append,
      run_take_stop (q := { p with buf := [], st := .start, len := 0 }) (hs := [.body (c :: b), .complete p.method p.len]) (f := .ret) (by simp) rfl ?_ (by simp)]
    · simp [hl]
    · simp [take, hl, P.finish, h4]

/-- The calls before the body. -/
def headHooks (r : Request) : List Hook := .msgBegin :: (uriHooks r ++ (.hdrsBegin :: hdrHooks r.headers))

/-- What comes before the body, up to the last LF. -/
theorem run_head {p : P} (hp : Ready p) {r : Request} (hr : r.HeadFits) (rest : Text) :
    ∃ q : P, q.st = .lalmost ∧ q.trailing = false ∧ q.chunked = false ∧ q.method = r.method ∧ q.len = declared r.headers ∧ q.orig = q.len ∧
      q.buf.length ≤ 8191 ∧ run p (r.head ++ rest) = pre (headHooks r) (run q (10 :: rest)) := by
  have hm : r.method ≠ 14 := by
    have := hr.word
    intro h; rw [h] at this
    simp [words] at this
  have e : r.head ++ rest = r.word ++ [32] ++ (r.path ++ r.tail ++ [32] ++ ([72, 84, 84, 80, 47, 49, 46, r.minor, 13, 10] ++
      (r.headers.flatMap line ++ 13 :: (10 :: rest)))) := by simp [Request.head]
  obtain ⟨a, h1⟩ := run_uri (p := afterWord p r.method) rfl rfl rfl hm hr ([72, 84, 84, 80, 47, 49, 46, r.minor, 13, 10] ++
      (r.headers.flatMap line ++ 13 :: (10 :: rest)))
  obtain ⟨q, q1, q2, q3, q4, q5, q6, q7, q8⟩ := run_headers r.headers hr.headers (10 :: rest)
    { afterWord p r.method with st := .done, buf := [], args := a } rfl rfl rfl (by simp)
  refine ⟨q, q1, q2, by rw [q3]; rfl, by rw [q4]; rfl, ?_, q6, q7, ?_⟩
  · rw [q5, declared_foldl]; rfl
  · rw [e, run_word hp hr.word, h1, run_version rfl rfl hr.minor, q8]
    simp only [pre_pre]
    congr 1

/-- A request of the usual form. -/
theorem run_request {p : P} (hp : Ready p) {r : Request} (hr : r.Fits) (rest : Text) :
    ∃ q, Ready q ∧ run p (r.text ++ rest) = (q, r.msg.hooks, .ret) := by
  obtain ⟨q, q1, q2, q3, q4, q5, q6, q7, q8⟩ := run_head hp hr.toHeadFits (r.body ++ rest)
  obtain ⟨q', hq', h2⟩ := run_body q1 q2 q3 q6 q7 r.body (by rw [hr.body, q5]) rest
  refine ⟨q', hq', ?_⟩
  rw [Request.text, List.append_assoc, q8, h2, q4]
  simp only [pre, Prod.mk.injEq, true_and, and_true]
  cases hb : r.body with
  | nil => simp [headHooks, uriHooks, hdrHooks, Np.Http.Msg.hooks, Request.msg, hb]
  | cons c b => simp [headHooks, uriHooks, hdrHooks, Np.Http.Msg.hooks, Request.msg, hb]

/-! ## Cutting the input -/

theorem items_append (a b : List Hook) : items (a ++ b) = items a ++ items b := by
  induction a with
  | nil => rfl
  | cons h a ih => cases h <;> simp [items, ih]

theorem items_body (s : Text) : items [.body s] = s.map .byte := by simp [items]

theorem items_one (k : Nat) (d : Text) : items (if 0 < k then [.body (d.take k)] else []) = (d.take k).map .byte := by
  split
  · exact items_body _
  · have : k = 0 := by omega
    simp [this, items]

/-- What `take` does with a piece that does not end the body. -/
theorem take_cont {p q : P} {a : Text} {hs} (hk : p.st.bulk = true) (h : take p a = (q, hs, .cont)) :
    hs = (if 0 < min a.length p.len then [.body (a.take (min a.length p.len))] else []) ∧ q.buf = p.buf ∧
      ((p.st = .cdata ∧ q = { p with len := p.len - min a.length p.len, st := if min a.length p.len = p.len then .cdataEnd else .cdata }) ∨
       (p.st = .body ∧ p.len - min a.length p.len ≠ 0 ∧ q = { p with len := p.len - min a.length p.len })) := by
  unfold take at h
  by_cases hc : p.st = .cdata
  · simp only [hc, if_true, Prod.mk.injEq, and_true] at h
    obtain ⟨rfl, rfl⟩ := h
    exact ⟨rfl, rfl, Or.inl ⟨hc, rfl⟩⟩
  · have hb : p.st = .body := by revert hk hc; cases p.st <;> simp [St.bulk]
    simp only [hb] at h
    by_cases h0 : p.len - min a.length p.len = 0
    · simp [h0] at h
    · simp [h0] at h
      obtain ⟨rfl, rfl⟩ := h
      exact ⟨rfl, by simp, Or.inr ⟨hb, h0, by simp [hb]⟩⟩

/-- Two results that differ only in how the body is cut. -/
def Same (x y : P × List Hook × Flow) : Prop := x.1 = y.1 ∧ items x.2.1 = items y.2.1 ∧ x.2.2 = y.2.2

theorem Same.pre {x y : P × List Hook × Flow} {a b : List Hook} (hab : items a = items b) (h : Same x y) : Same (pre a x) (pre b y) := by
  obtain ⟨h1, h2, h3⟩ := h
  exact ⟨h1, by simp [Htp.pre, items_append, hab, h2], h3⟩

theorem Same.refl (x : P × List Hook × Flow) : Same x x := ⟨rfl, rfl, rfl⟩
theorem Same.symm {x y : P × List Hook × Flow} (h : Same x y) : Same y x := ⟨h.1.symm, h.2.1.symm, h.2.2.symm⟩
theorem Same.trans {x y z : P × List Hook × Flow} (h : Same x y) (g : Same y z) : Same x z := ⟨h.1.trans g.1, h.2.1.trans g.2.1, h.2.2.trans g.2.2⟩

theorem bulk_cases {s : St} (h : s.bulk = true) : s = .cdata ∨ s = .body := by revert h; cases s <;> simp [St.bulk]

theorem take_same {p : P} {a b : Text} (h : p.len ≤ a.length) : take p (a ++ b) = take p a := by
  have h1 : min (a ++ b).length p.len = p.len := by simp; omega
  have h2 : min a.length p.len = p.len := by omega
  unfold take
  simp only [h1, h2, List.take_append_of_le_length h]

/-- A piece that ends inside the body. -/
theorem run_inside {p : P} (hb : p.buf.length < 8192) (hk : p.st.bulk = true) {c : Nat} {cs : Text} (hl : cs.length + 1 < p.len) :
    run p (c :: cs) = ({ p with len := p.len - (cs.length + 1) }, [.body (c :: cs)], .cont) := by
  have hm : min (cs.length + 1) p.len = cs.length + 1 := by omega
  have h : take p (c :: cs) = ({ p with len := p.len - (cs.length + 1) }, [.body (c :: cs)], .cont) := by
    rcases bulk_cases hk with h | h
    · have h2 : ¬ (cs.length + 1 = p.len) := by omega
      simp [take, h, hm, h2]
    · have h2 : p.len - (cs.length + 1) ≠ 0 := by omega
      simp [take, h, hm, h2]
  rw [run_take hb hk h, hm]
  simp [run_nil, pre]

theorem run_inside_cut {p : P} (hb : p.buf.length < 8192) (hk : p.st.bulk = true) {c : Nat} {cs : Text} (hl : cs.length + 1 < p.len) (b : Text) :
    Same (run p (c :: cs ++ b)) (pre [.body (c :: cs)] (run { p with len := p.len - (cs.length + 1) } b)) := by
  cases b with
  | nil => rw [List.append_nil, run_inside hb hk hl, run_nil]; exact Same.refl _
  | cons d ds =>
    have hm1 : min ((c :: cs) ++ d :: ds).length p.len = cs.length + 1 + min (d :: ds).length (p.len - (cs.length + 1)) := by
      simp only [List.length_append, List.length_cons]; omega
    have hk2 : 1 ≤ min (d :: ds).length (p.len - (cs.length + 1)) := by simp only [List.length_cons]; omega
    generalize hk2e : min (d :: ds).length (p.len - (cs.length + 1)) = k2 at *
    have htk : ((c :: cs) ++ d :: ds).take (cs.length + 1 + k2) = (c :: cs) ++ (d :: ds).take k2 := by
      rw [List.take_append]
      rw [List.take_of_length_le (by simp)]
      simp [List.length_cons]
    have hdr : (cs ++ d :: ds).drop (cs.length + 1 + k2 - 1) = ds.drop (k2 - 1) := by
      rw [List.drop_append]
      rw [List.drop_of_length_le (by omega), List.nil_append]
      have : cs.length + 1 + k2 - 1 - cs.length = (k2 - 1) + 1 := by omega
      rw [this, List.drop_succ_cons]
    have hmin : min ((cs ++ d :: ds).length + 1) p.len = cs.length + 1 + k2 := by
      have := hm1; simpa [List.length_append, List.length_cons] using this
    have hmin2 : min (ds.length + 1) (p.len - (cs.length + 1)) = k2 := by simpa using hk2e
    rcases bulk_cases hk with h | h
    · have e1 : take p (c :: (cs ++ d :: ds)) = ({ p with len := p.len - (cs.length + 1) - k2, st := if k2 = p.len - (cs.length + 1) then .cdataEnd else .cdata },
          [.body ((c :: cs) ++ (d :: ds).take k2)], .cont) := by
        have := htk
        unfold take
        rw [List.cons_append] at hm1 htk
        simp only [hm1, htk, h, if_true]
        rw [if_pos (by omega : 0 < cs.length + 1 + k2)]
        have e : (cs.length + 1 + k2 = p.len) = (k2 = p.len - (cs.length + 1)) := by apply propext; omega
        simp only [e, Nat.sub_sub]
      have e2 : take { p with len := p.len - (cs.length + 1) } (d :: ds) =
          ({ p with len := p.len - (cs.length + 1) - k2, st := if k2 = p.len - (cs.length + 1) then .cdataEnd else .cdata }, [.body ((d :: ds).take k2)], .cont) := by
        unfold take
        simp only [hk2e, h, if_true]
        rw [if_pos (by omega : 0 < k2)]
      rw [List.cons_append, run_take hb hk e1, run_take (p := { p with len := p.len - (cs.length + 1) }) hb hk e2, pre_pre]
      simp only [hmin, hmin2, hdr]
      exact Same.pre (by simp [items]) (Same.refl _)
    · by_cases h0 : p.len - (cs.length + 1) - k2 = 0
      · have h0' : p.len - (cs.length + 1 + k2) = 0 := by omega
        have e1 : take p (c :: (cs ++ d :: ds)) = ({ p with len := 0, st := .start }, [.body ((c :: cs) ++ (d :: ds).take k2), .complete p.method p.orig], .ret) := by
          unfold take
          rw [List.cons_append] at hm1 htk
          simp only [hm1, htk, h]
          rw [if_pos (by omega : 0 < cs.length + 1 + k2)]
          simp [h0', P.finish]
        have e2 : take { p with len := p.len - (cs.length + 1) } (d :: ds) =
            ({ p with len := 0, st := .start }, [.body ((d :: ds).take k2), .complete p.method p.orig], .ret) := by
          unfold take
          simp only [hk2e, h]
          rw [if_pos (by omega : 0 < k2)]
          simp [h0, P.finish]
        rw [List.cons_append, run_take_stop hb hk e1 (by simp), run_take_stop (p := { p with len := p.len - (cs.length + 1) }) hb hk e2 (by simp)]
        exact ⟨rfl, by simp [items, pre], rfl⟩
      · have h0' : ¬ p.len - (cs.length + 1 + k2) = 0 := by omega
        have e1 : take p (c :: (cs ++ d :: ds)) = ({ p with len := p.len - (cs.length + 1) - k2 }, [.body ((c :: cs) ++ (d :: ds).take k2)], .cont) := by
          unfold take
          rw [List.cons_append] at hm1 htk
          simp only [hm1, htk, h]
          rw [if_pos (by omega : 0 < cs.length + 1 + k2)]
          simp [h0', Nat.sub_sub]
        have e2 : take { p with len := p.len - (cs.length + 1) } (d :: ds) =
            ({ p with len := p.len - (cs.length + 1) - k2 }, [.body ((d :: ds).take k2)], .cont) := by
          unfold take
          simp only [hk2e, h]
          rw [if_pos (by omega : 0 < k2)]
          simp [h0]
        rw [List.cons_append, run_take hb hk e1, run_take (p := { p with len := p.len - (cs.length + 1) }) hb hk e2, pre_pre]
        simp only [hmin, hmin2, hdr]
        exact Same.pre (by simp [items]) (Same.refl _)

/-- Less of the body than declared. -/
theorem run_wait {p : P} (hp : Ready p) {r : Request} (hr : r.HeadFits) (d : Text) (hd : d.length < declared r.headers) :
    ∃ q, run p (r.head ++ d) = (q, headHooks r ++ (if d = [] then [] else [.body d]), .cont) := by
  obtain ⟨q, q1, q2, q3, q4, q5, q6, q7, q8⟩ := run_head hp hr d
  have h0 : 0 < q.len := by omega
  have s1 : step q 10 = ({ q with buf := [], st := .body }, [], .cont) := by simp [step, q1, q2, q3, h0]
  rw [q8, run_step (by omega) (by rw [q1]; rfl) s1, pre_nil]
  cases d with
  | nil => rw [run_nil]; exact ⟨_, rfl⟩
  | cons c cs =>
    rw [run_inside (p := { q with buf := [], st := .body }) (by simp) rfl (by simpa [q5] using hd)]
    exact ⟨_, rfl⟩

/-- Reading in two pieces, the first of which does not end the request, is reading all. -/
theorem run_cut (b : Text) : ∀ n (a : Text), a.length ≤ n → ∀ p : P,
    ((run p a).2.2 = .cont → Same (run p (a ++ b)) (pre (run p a).2.1 (run (run p a).1 b))) ∧ ((run p a).2.2 ≠ .cont → run p (a ++ b) = run p a) := by
  intro n
  induction n with
  | zero =>
    intro a ha p
    have : a = [] := List.eq_nil_of_length_eq_zero (by omega)
    subst this
    rw [run_nil]
    exact ⟨fun _ => by rw [List.nil_append]; exact Same.refl _, fun h => absurd rfl h⟩
  | succ n ih =>
    intro a ha p
    cases a with
    | nil => rw [run_nil]; exact ⟨fun _ => by rw [List.nil_append]; exact Same.refl _, fun h => absurd rfl h⟩
    | cons c cs =>
      simp only [List.length_cons] at ha
      by_cases hb : 8192 ≤ p.buf.length
      · rw [List.cons_append, run_full hb, run_full hb]
        exact ⟨fun h => by simp at h, fun _ => rfl⟩
      · have hb' : p.buf.length < 8192 := by omega
        cases hk : p.st.bulk with
        | false =>
          rcases hs : step p c with ⟨q, hs', f⟩
          by_cases hf : f = .cont
          · subst hf
            rw [List.cons_append, run_step hb' hk hs, run_step hb' hk hs]
            obtain ⟨i1, i2⟩ := ih cs (by omega) q
            constructor
            · intro h
              have := Same.pre (a := hs') (b := hs') rfl (i1 h)
              rw [pre_pre] at this
              exact this
            · intro h; rw [i2 h]
          · rw [List.cons_append, run_stop hb' hk hs hf, run_stop hb' hk hs hf]
            exact ⟨fun h => absurd h hf, fun _ => rfl⟩
        | true =>
          by_cases hl : cs.length + 1 < p.len
          · rw [run_inside hb' hk hl]
            exact ⟨fun _ => run_inside_cut hb' hk hl b, fun h => absurd rfl h⟩
          · have hts : take p (c :: (cs ++ b)) = take p (c :: cs) := by
              have := take_same (p := p) (a := c :: cs) (b := b) (by simp; omega)
              rwa [List.cons_append] at this
            rcases hs : take p (c :: cs) with ⟨q, hs', f⟩
            rw [hs] at hts
            by_cases hf : f = .cont
            · subst hf
              rw [List.cons_append, run_take hb' hk hts, run_take hb' hk hs]
              have e1 : min ((cs ++ b).length + 1) p.len = p.len := by simp; omega
              have e2 : min (cs.length + 1) p.len = p.len := by omega
              rw [e1, e2, List.drop_append_of_le_length (by omega)]
              obtain ⟨i1, i2⟩ := ih (cs.drop (p.len - 1)) (by simp; omega) q
              constructor
              · intro h
                have := Same.pre (a := hs') (b := hs') rfl (i1 h)
                rw [pre_pre] at this
                exact this
              · intro h; rw [i2 h]
            · rw [List.cons_append, run_take_stop hb' hk hts hf, run_take_stop hb' hk hs hf]
              exact ⟨fun h => absurd h hf, fun _ => rfl⟩

theorem feed_same (as : List Text) : ∀ p : P, Same (feed p as) (run p as.flatten) := by
  induction as with
  | nil => intro p; rw [List.flatten_nil, run_nil]; exact Same.refl _
  | cons a as ih =>
    intro p
    obtain ⟨h1, h2⟩ := run_cut as.flatten a.length a (Nat.le_refl _) p
    rw [List.flatten_cons]
    rcases hr : run p a with ⟨q, hs, f⟩
    by_cases hf : f = .cont
    · subst hf
      rw [hr] at h1
      have e : feed p (a :: as) = pre hs (feed q as) := by rw [feed, hr]; rfl
      rw [e]
      exact (Same.pre rfl (ih q)).trans (h1 rfl).symm
    · have e : feed p (a :: as) = (q, hs, f) := by rw [feed, hr]; cases f <;> simp_all
      rw [e, h2 (by rw [hr]; exact hf), hr]
      exact Same.refl _

/-! ## Several requests -/

theorem word_first {w : Text} {m : Nat} (h : (w, m) ∈ words) : ∃ c w', w = c :: w' ∧ 65 ≤ c := by
  simp only [words, List.mem_cons, Prod.mk.injEq, List.not_mem_nil, or_false] at h
  rcases h with h | h | h | h | h | h | h | h | h | h | h | h | h | h | h <;> obtain ⟨rfl, rfl⟩ := h <;> exact ⟨_, _, rfl, by decide⟩

theorem reads_requests (rs : List Request) (hr : ∀ r ∈ rs, r.Fits) : ∀ p : P, Ready p →
    Ready (reads p (rs.map Request.text)).1 ∧ (reads p (rs.map Request.text)).2 = rs.map (fun r => (r.msg.hooks, .ret)) := by
  induction rs with
  | nil => intro p hp; exact ⟨hp, rfl⟩
  | cons r rs ih =>
    intro p hp
    obtain ⟨q, hq, h⟩ := run_request hp (hr r (by simp)) []
    rw [List.append_nil] at h
    obtain ⟨i1, i2⟩ := ih (fun r h => hr r (by simp [h])) q hq
    simp only [List.map_cons, reads, h]
    exact ⟨i1, by rw [i2]⟩

theorem reads_stuck (rs : List Request) (hr : ∀ r ∈ rs, r.Fits) : ∀ p : P, p.st = .minor → p.buf.length < 8192 →
    (reads p (rs.map Request.text)).2 = rs.map (fun _ => ([], .err)) := by
  induction rs with
  | nil => intro p _ _; rfl
  | cons r rs ih =>
    intro p h1 h2
    obtain ⟨c, w, hw, hc⟩ := word_first (hr r (by simp)).word
    have e : r.text = c :: (w ++ ([32] ++ r.path ++ r.tail ++ [32, 72, 84, 84, 80, 47, 49, 46, r.minor, 13, 10] ++ r.headers.flatMap line ++ [13, 10] ++ r.body)) := by
      simp [Request.text, Request.head, hw]
    have s1 : step p c = (p, [], .err) := by
      have a1 : c ≠ 32 := by omega
      have a2 : c ≠ 13 := by omega
      have a3 : c < 48 ∨ 57 < c := by omega
      simp [step, h1, a1, a2, a3, P.digit]
    have h : run p r.text = (p, [], .err) := by rw [e]; exact run_stop h2 (by rw [h1]; rfl) s1 (by simp)
    simp only [List.map_cons, reads, h]
    rw [ih (fun r h => hr r (by simp [h])) p h1 h2]

/-! ## The buffer -/

theorem endVal_buf (p : P) : p.endVal.1.buf = p.buf := by unfold P.endVal; (repeat' split) <;> rfl
theorem digit_buf (p : P) (c lo : Nat) (s : St) : (p.digit c lo s).1.buf = p.buf := by unfold P.digit; split <;> rfl
theorem expect_buf (p : P) (c w : Nat) (s : St) : (p.expect c w s).1.buf = p.buf := by unfold P.expect; split <;> rfl
theorem finish_buf (p : P) : p.finish.1.buf = p.buf := rfl
theorem hdrStart_buf (p : P) (c : Nat) : (p.hdrStart c).1.buf.length ≤ 1 := by unfold P.hdrStart; (repeat' split) <;> simp
theorem add_buf (p : P) (c : Nat) : (p.add c).buf.length = p.buf.length + 1 := by simp [P.add]

theorem step_buf (p : P) (c : Nat) (h : p.buf.length < 8192) : (step p c).1.buf.length ≤ 8192 := by
  have h1 := hdrStart_buf p c
  have h2 := add_buf p c
  have h3 := add_buf p 32
  unfold step
  split <;> (repeat' split) <;>
    first
    | omega
    | (rw [endVal_buf]; first | omega | (show (p.add 32).buf.length ≤ 8192; omega))
    | (rw [digit_buf]; omega)
    | (rw [expect_buf]; omega)
    | (rw [finish_buf]; first | omega | (show ([] : Text).length ≤ 8192; decide))
    | (show p.buf.length ≤ 8192; omega)
    | (show (p.add c).buf.length ≤ 8192; omega)
    | (show ([] : Text).length ≤ 8192; decide)
    | (show [c].length ≤ 8192; simp)
    | (simp [P.add]; omega)

theorem take_buf (p : P) (d : Text) : (take p d).1.buf = p.buf := by
  unfold take; simp only [P.finish]; (repeat' split) <;> rfl

theorem run_buf : ∀ n (d : Text), d.length ≤ n → ∀ p : P, p.buf.length ≤ 8192 → (run p d).1.buf.length ≤ 8192 := by
  intro n
  induction n with
  | zero =>
    intro d hd p hp
    have : d = [] := List.eq_nil_of_length_eq_zero (by omega)
    subst this; rw [run_nil]; exact hp
  | succ n ih =>
    intro d hd p hp
    cases d with
    | nil => rw [run_nil]; exact hp
    | cons c cs =>
      simp only [List.length_cons] at hd
      by_cases hb : 8192 ≤ p.buf.length
      · rw [run_full hb]; exact hp
      · have hb' : p.buf.length < 8192 := by omega
        cases hk : p.st.bulk with
        | false =>
          have hs0 := step_buf p c hb'
          rcases hs : step p c with ⟨q, hs', f⟩
          rw [hs] at hs0
          by_cases hf : f = .cont
          · subst hf; rw [run_step hb' hk hs]; exact ih cs (by omega) q hs0
          · rw [run_stop hb' hk hs hf]; exact hs0
        | true =>
          have hs0 := take_buf p (c :: cs)
          rcases hs : take p (c :: cs) with ⟨q, hs', f⟩
          rw [hs] at hs0; simp only at hs0
          by_cases hf : f = .cont
          · subst hf; rw [run_take hb' hk hs]; exact ih _ (by simp; omega) q (by rw [hs0]; omega)
          · rw [run_take_stop hb' hk hs hf]; simp only [hs0]; omega

/-! ## Running the parser on literal data -/

/-- `run` by recursion on a number, for evaluation in the kernel. -/
def runF : Nat → P → Text → P × List Hook × Flow
  | 0, p, _ => (p, [], .cont)
  | _ + 1, p, [] => (p, [], .cont)
  | n + 1, p, c :: cs =>
    if 8192 ≤ p.buf.length then (p, [], .err)
    else if p.st.bulk then
      match take p (c :: cs) with
      | (q, hs, .cont) => pre hs (runF n q (cs.drop (min (cs.length + 1) p.len - 1)))
      | x => x
    else
      match step p c with
      | (q, hs, .cont) => pre hs (runF n q cs)
      | x => x

theorem runF_eq : ∀ n (d : Text), d.length ≤ n → ∀ p : P, run p d = runF n p d := by
  intro n
  induction n with
  | zero =>
    intro d hd p
    have : d = [] := List.eq_nil_of_length_eq_zero (by omega)
    subst this; rw [run_nil]; rfl
  | succ n ih =>
    intro d hd p
    cases d with
    | nil => rw [run_nil]; rfl
    | cons c cs =>
      simp only [List.length_cons] at hd
      rw [runF]
      by_cases hb : 8192 ≤ p.buf.length
      · rw [run_full hb, if_pos hb]
      · have hb' : p.buf.length < 8192 := by omega
        rw [if_neg hb]
        cases hk : p.st.bulk with
        | false =>
          rcases hs : step p c with ⟨q, hs', f⟩
          by_cases hf : f = .cont
          · subst hf; rw [run_step hb' hk hs, ih cs (by omega) q]; rfl
          · rw [run_stop hb' hk hs hf]; cases f <;> simp_all
        | true =>
          rcases hs : take p (c :: cs) with ⟨q, hs', f⟩
          by_cases hf : f = .cont
          · subst hf; rw [run_take hb' hk hs, ih _ (by simp; omega) q]; rfl
          · rw [run_take_stop hb' hk hs hf]; cases f <;> simp_all

theorem run_eval (p : P) (d : Text) : run p d = runF d.length p d := runF_eq _ _ (Nat.le_refl _) _

end Np.Htp

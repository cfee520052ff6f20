import Verif.Sys.Spec
import Mathlib.Data.List.Nodup
/-! # Lemmas on the reports -/
namespace Np.Sys
open _root_.Np.Sys.Spec
open Np.Http (Text)

variable {α : Type}

abbrev Cache (α : Type) := List (Text × Report α)

def Keys (c : Cache α) : Prop := (c.map (·.1)).Nodup
def Stamped (c : Cache α) : Prop := ∀ e ∈ c, e.2.stamp.isSome

theorem find_mem {c : Cache α} {s : Text} {r : Report α} (h : find c s = some r) : (s, r) ∈ c := by
  unfold find at h
  cases k : c.find? (fun e => e.1 == s) with
  | none => rw [k] at h; simp at h
  | some e =>
    rw [k] at h
    have h1 := List.mem_of_find?_eq_some k
    have h2 := List.find?_some k
    obtain ⟨a, b⟩ := e
    simp at h h2
    subst h; subst h2
    exact h1

theorem find_none {c : Cache α} {s : Text} (h : find c s = none) : ∀ e ∈ c, e.1 ≠ s := by
  unfold find at h
  simp only [Option.map_eq_none_iff, List.find?_eq_none] at h
  intro e he
  simpa using h e he

theorem find_of_mem {c : Cache α} (hk : Keys c) {s : Text} {r : Report α} (h : (s, r) ∈ c) : find c s = some r := by
  induction c with
  | nil => simp at h
  | cons e es ih =>
    unfold Keys at hk
    simp only [List.map_cons, List.nodup_cons] at hk
    unfold find
    simp only [List.find?_cons]
    by_cases q : e.1 = s
    · rw [show (e.1 == s) = true from by simpa using q]
      rcases List.mem_cons.1 h with h | h
      · subst h; rfl
      · exact absurd (List.mem_map.2 ⟨_, h, rfl⟩) (q ▸ hk.1)
    · rw [show (e.1 == s) = false from by simpa using q]
      rcases List.mem_cons.1 h with h | h
      · subst h; exact absurd rfl q
      · exact ih hk.2 h

theorem find_map (c : Cache α) (s s' : Text) (r : Report α) :
    find (c.map (fun e => if e.1 == s then (e.1, r) else e)) s' = if s' = s then (find c s).map (fun _ => r) else find c s' := by
  induction c with
  | nil => simp [find]
  | cons e es ih =>
    unfold find at ih ⊢
    simp only [List.map_cons, List.find?_cons]
    by_cases q : e.1 = s
    · subst q
      by_cases w : s' = e.1
      · subst w; simp
      · have w' : e.1 ≠ s' := fun h => w h.symm
        simp only [beq_self_eq_true, if_true, w, if_false] at ih ⊢
        rw [show (e.1 == s') = false from by simpa using w']
        exact ih
    · have q' : (e.1 == s) = false := by simpa using q
      simp only [q', Bool.false_eq_true, if_false]
      by_cases w : e.1 = s'
      · subst w
        simp [q]
      · rw [show (e.1 == s') = false from by simpa using w]
        exact ih

theorem find_append (c : Cache α) (s s' : Text) (r : Report α) (h : find c s = none) :
    find (c ++ [(s, r)]) s' = if s' = s then some r else find c s' := by
  unfold find at h ⊢
  rw [List.find?_append]
  by_cases q : s' = s
  · subst q
    rw [Option.map_eq_none_iff] at h
    simp [h]
  · have q' : (s == s') = false := by simpa using fun h => q h.symm
    simp [q, q']

theorem put_eq {c : Cache α} {s : Text} (r : Report α) (hs : s.length ≤ 255) (h : find c s = none) : put c s r = c ++ [(s, r)] := by
  unfold put
  rw [List.take_of_length_le hs, if_neg]
  intro k
  obtain ⟨e, he, q⟩ := List.any_eq_true.1 k
  exact find_none h e he (by simpa using q)

theorem find_replace (c : Cache α) (s s' : Text) (r : Report α) (hs : s.length ≤ 255) :
    find (replace c s r) s' = if s' = s then some r else find c s' := by
  unfold replace
  split
  · rename_i h
    rw [find_map]
    obtain ⟨o, ho⟩ := Option.isSome_iff_exists.1 h
    rw [ho]; rfl
  · rename_i h
    have h : find c s = none := by simpa using h
    rw [put_eq r hs h, find_append c s s' r h]

theorem keys_replace {c : Cache α} (s : Text) (r : Report α) (hs : s.length ≤ 255) (hk : Keys c) : Keys (replace c s r) := by
  unfold replace
  split
  · unfold Keys
    rw [List.map_map]
    have : ((fun x : Text × Report α => x.1) ∘ fun e => if e.1 == s then (e.1, r) else e) = fun x => x.1 := by
      funext e
      show (if e.1 == s then (e.1, r) else e).1 = e.1
      split <;> rfl
    rw [this]; exact hk
  · rename_i h
    have h : find c s = none := by simpa using h
    rw [put_eq r hs h]
    unfold Keys
    rw [List.map_append, List.nodup_append]
    refine ⟨hk, by simp, ?_⟩
    intro x hx y hy
    simp at hy
    subst hy
    obtain ⟨e, he, rfl⟩ := List.mem_map.1 hx
    exact find_none h e he

theorem mem_replace {c : Cache α} {s : Text} {r : Report α} {e : Text × Report α} (h : e ∈ replace c s r) : e.2 = r ∨ e ∈ c := by
  unfold replace at h
  split at h
  · obtain ⟨x, hx, rfl⟩ := List.mem_map.1 h
    split
    · exact .inl rfl
    · exact .inr hx
  · unfold put at h
    split at h
    · exact .inr h
    · rcases List.mem_append.1 h with h | h
      · exact .inr h
      · simp at h; subst h; exact .inl rfl

/-! ## The loop over the cache -/

def live (now : Int) (e : Text × Report α) : Bool := decide (¬ now > time e.2 + lifetime)

theorem pass_stamped (now : Int) (c : Cache α) (h : Stamped c) :
    (pass now c = .ok none ∧ c.filter (live now) = c) ∨
    ∃ c', pass now c = .ok (some c') ∧ c'.length < c.length ∧ c'.filter (live now) = c.filter (live now) ∧ Stamped c' := by
  induction c with
  | nil => exact .inl ⟨rfl, rfl⟩
  | cons e es ih =>
    have he := h e (List.mem_cons_self ..)
    have hes : Stamped es := fun x hx => h x (List.mem_cons_of_mem _ hx)
    obtain ⟨t, ht⟩ := Option.isSome_iff_exists.1 he
    have htime : time e.2 = t := by unfold time; rw [ht]; rfl
    unfold pass
    rw [ht]
    simp only []
    by_cases q : now > t + lifetime
    · rw [if_pos q]
      refine .inr ⟨es, rfl, by simp, ?_, hes⟩
      rw [List.filter_cons_of_neg]
      unfold live
      rw [htime]
      simp; omega
    · rw [if_neg q]
      have hl : live now e = true := by
        unfold live; rw [htime]; simpa using q
      rcases ih hes with ⟨h1, h2⟩ | ⟨c', h1, h2, h3, h4⟩
      · rw [h1]
        exact .inl ⟨rfl, by rw [List.filter_cons_of_pos hl, h2]⟩
      · rw [h1]
        refine .inr ⟨e :: c', rfl, by simpa using h2, by rw [List.filter_cons_of_pos hl, List.filter_cons_of_pos hl, h3], ?_⟩
        intro x hx
        rcases List.mem_cons.1 hx with rfl | hx
        · exact he
        · exact h4 x hx

theorem passes_stamped (now : Int) : ∀ (n : Nat) (c : Cache α), Stamped c → c.length < n → passes now n c = .ok (c.filter (live now))
  | 0, _, _, h => absurd h (by omega)
  | n + 1, c, hs, hn => by
    unfold passes
    rcases pass_stamped now c hs with ⟨h1, h2⟩ | ⟨c', h1, h2, h3, h4⟩
    · rw [h1]; simp only []; rw [h2]
    · rw [h1]; simp only []
      rw [passes_stamped now n c' h4 (by omega), h3]

theorem interval_stamped (now : Int) (c : Cache α) (h : Stamped c) : interval now c = .ok (c.filter (live now)) :=
  passes_stamped now _ c h (by omega)

theorem pass_unstamped (now : Int) (c : Cache α) (h : ∃ e ∈ c, e.2.stamp = none) :
    pass now c = .error .noStamp ∨ ∃ c', pass now c = .ok (some c') ∧ c'.length < c.length ∧ ∃ e ∈ c', e.2.stamp = none := by
  induction c with
  | nil => obtain ⟨e, he, _⟩ := h; simp at he
  | cons e es ih =>
    unfold pass
    cases k : e.2.stamp with
    | none => exact .inl rfl
    | some t =>
      simp only []
      have hes : ∃ e ∈ es, e.2.stamp = none := by
        obtain ⟨x, hx, q⟩ := h
        rcases List.mem_cons.1 hx with rfl | hx
        · rw [k] at q; simp at q
        · exact ⟨x, hx, q⟩
      split
      · exact .inr ⟨es, rfl, by simp, hes⟩
      · rcases ih hes with h1 | ⟨c', h1, h2, x, hx, q⟩
        · rw [h1]; exact .inl rfl
        · rw [h1]
          exact .inr ⟨e :: c', rfl, by simpa using h2, x, List.mem_cons_of_mem _ hx, q⟩

theorem passes_unstamped (now : Int) : ∀ (n : Nat) (c : Cache α), (∃ e ∈ c, e.2.stamp = none) → c.length < n → passes now n c = .error .noStamp
  | 0, _, _, h => absurd h (by omega)
  | n + 1, c, hs, hn => by
    unfold passes
    rcases pass_unstamped now c hs with h1 | ⟨c', h1, h2, h3⟩
    · rw [h1]
    · rw [h1]; simp only []
      exact passes_unstamped now n c' h3 (by omega)

theorem interval_unstamped (now : Int) (c : Cache α) (h : ∃ e ∈ c, e.2.stamp = none) : interval now c = .error .noStamp :=
  passes_unstamped now _ c h (by omega)

theorem find_filter (c : Cache α) (hk : Keys c) (now : Int) (s : Text) :
    find (c.filter (live now)) s = match find c s with
      | some r => if time r + lifetime < now then none else some r
      | none => none := by
  have hk' : Keys (c.filter (live now)) := by
    unfold Keys at hk ⊢
    exact hk.sublist (List.Sublist.map _ List.filter_sublist)
  cases k : find c s with
  | none =>
    cases q : find (c.filter (live now)) s with
    | none => rfl
    | some r => exact absurd rfl (find_none k _ (List.mem_filter.1 (find_mem q)).1)
  | some r =>
    simp only []
    have hm := find_mem k
    by_cases w : time r + lifetime < now
    · rw [if_pos w]
      cases q : find (c.filter (live now)) s with
      | none => rfl
      | some r' =>
        have h1 := List.mem_filter.1 (find_mem q)
        have h2 := find_of_mem hk h1.1
        rw [k] at h2
        injection h2 with h2
        subst h2
        have := h1.2
        unfold live at this
        simp at this
        omega
    · rw [if_neg w]
      refine find_of_mem hk' (List.mem_filter.2 ⟨hm, ?_⟩)
      unfold live
      simp; omega

theorem keys_filter {c : Cache α} (hk : Keys c) (p : Text × Report α → Bool) : Keys (c.filter p) := by
  unfold Keys at hk ⊢
  exact hk.sublist (List.Sublist.map _ List.filter_sublist)

/-! ## Histories -/

theorem snoc_eq {a b l : List (Op α)} {x o : Op α} (h : l ++ [o] = a ++ x :: b) : (b = [] ∧ a = l ∧ x = o) ∨ ∃ b', b = b' ++ [o] ∧ l = a ++ x :: b' := by
  rcases List.eq_nil_or_concat b with rfl | ⟨b', y, rfl⟩
  · have := List.append_inj' h rfl
    simp at this
    exact .inl ⟨rfl, this.1.symm, this.2.symm⟩
  · simp only [List.concat_eq_append] at h ⊢
    have h' : l ++ [o] = (a ++ x :: b') ++ [y] := by simpa using h
    have := List.append_inj' h' rfl
    simp at this
    exact .inr ⟨b', by rw [this.2], this.1⟩

theorem asked_append (a b : List (Op α)) : asked (a ++ b) = asked a ++ asked b := by
  induction a with
  | nil => rfl
  | cons o os ih => cases o <;> simp [asked, ih]

theorem standing_snoc (l : List (Op α)) (o : Op α) (s : Text) (r : Report α) :
    Standing (l ++ [o]) s r ↔ ((∃ f, o = .report f r) ∧ r.source = some s) ∨ (Standing l s r ∧ ∀ now ∈ asked [o], ¬ Old r now) := by
  constructor
  · rintro ⟨a, b, f, h, hs, hn⟩
    rcases snoc_eq h with ⟨rfl, rfl, rfl⟩ | ⟨b', rfl, rfl⟩
    · exact .inl ⟨⟨f, rfl⟩, hs⟩
    · rw [asked_append] at hn
      exact .inr ⟨⟨a, b', f, rfl, hs, fun now h => hn now (List.mem_append_left _ h)⟩, fun now h => hn now (List.mem_append_right _ h)⟩
  · rintro (⟨⟨f, rfl⟩, hs⟩ | ⟨⟨a, b, f, rfl, hs, hn⟩, hn'⟩)
    · exact ⟨l, [], f, rfl, hs, by simp [asked]⟩
    · refine ⟨a, b ++ [o], f, by simp, hs, ?_⟩
      rw [asked_append]
      intro now h
      rcases List.mem_append.1 h with h | h
      · exact hn now h
      · exact hn' now h

/-- What holds after every history of proper reports. -/
structure Inv (pre : List (Op α)) (st : St α) (c : Cache α) : Prop where
  cache : st.cache = some c
  keys : Keys c
  stamped : Stamped c
  named : ∀ e ∈ c, e.2.source = some e.1
  newest : ∀ s, Newest pre s (find c s)

theorem initCache_some {st : St α} {c : Cache α} (h : st.cache = some c) : initCache st = st := by
  unfold initCache
  rw [h]
  cases st
  simp at h
  subst h
  rfl

theorem myInfo_some {st : St α} {c : Cache α} (h : st.cache = some c) (now : Int) (own : α) :
    myInfo st now own = .ok { source := none, stamp := some now, rest := own } := by
  unfold myInfo; rw [h]

theorem getInfo_some {st : St α} {c : Cache α} (h : st.cache = some c) (me : Text) (now : Int) (own : α) (t : Text) :
    getInfo st me now own t = .ok (st, if t.take 64 = me.take 64 then some { source := none, stamp := some now, rest := own } else find c t) := by
  unfold getInfo
  by_cases q : t.take 64 = me.take 64
  · rw [if_pos q, if_pos q, myInfo_some h]; rfl
  · rw [if_neg q, if_neg q]
    unfold fromCache
    simp only [initCache_some h, h, Option.getD_some]

theorem getAll_stamped {st : St α} {c : Cache α} (h : st.cache = some c) (hs : Stamped c) (now : Int) (own : α) :
    getAll st now own = if (c.filter (live now)).length > 32767 then .error .tooMany else
      .ok ({ st with cache := some (c.filter (live now)) }, { source := none, stamp := some now, rest := own } :: (c.filter (live now)).map (·.2)) := by
  unfold getAll
  rw [myInfo_some h]
  simp only [h, Option.getD_some, interval_stamped now c hs]

theorem newest_other {pre : List (Op α)} {o : Op α} {s : Text} {x : Option (Report α)} (h : Newest pre s x)
    (ho : ∀ r, Standing (pre ++ [o]) s r ↔ Standing pre s r) : Newest (pre ++ [o]) s x := by
  cases x with
  | none => intro r hr; exact h r ((ho r).1 hr)
  | some r => exact ⟨(ho r).2 h.1, fun r' hr' => h.2 r' ((ho r').1 hr')⟩

theorem inv_step (me : Text) {pre : List (Op α)} {st st' : St α} {c : Cache α} (hi : Inv pre st c) (o : Op α)
    (ho : ∀ f r, o = .report f r → Proper r) (h : step me st o = .ok st') : ∃ c', Inv (pre ++ [o]) st' c' := by
  cases o with
  | info now own t =>
    simp only [step, getInfo_some hi.cache, Except.map] at h
    injection h with h
    subst h
    refine ⟨c, hi.cache, hi.keys, hi.stamped, hi.named, fun s => newest_other (hi.newest s) fun r => ?_⟩
    rw [standing_snoc]
    simp [asked]
  | all now own =>
    simp only [step, getAll_stamped hi.cache hi.stamped] at h
    split at h
    · simp [Except.map] at h
    · simp only [Except.map] at h
      injection h with h
      subst h
      refine ⟨c.filter (live now), rfl, keys_filter hi.keys _, fun e he => hi.stamped e (List.mem_filter.1 he).1, fun e he => hi.named e (List.mem_filter.1 he).1, ?_⟩
      intro s
      have hn := hi.newest s
      rw [find_filter c hi.keys now s]
      have st1 : ∀ r, Standing (pre ++ [.all now own]) s r ↔ Standing pre s r ∧ ¬ Old r now := by
        intro r
        rw [standing_snoc]
        simp [asked]
      cases k : find c s with
      | none =>
        rw [k] at hn
        intro r hr
        exact hn r ((st1 r).1 hr).1
      | some r =>
        rw [k] at hn
        simp only []
        by_cases w : time r + lifetime < now
        · rw [if_pos w]
          intro r' hr'
          obtain ⟨h1, h2⟩ := (st1 r').1 hr'
          have := hn.2 r' h1
          unfold Old at h2
          unfold lifetime at w
          omega
        · rw [if_neg w]
          refine ⟨(st1 r).2 ⟨hn.1, ?_⟩, fun r' hr' => hn.2 r' ((st1 r').1 hr').1⟩
          unfold Old
          unfold lifetime at w
          omega
  | report f r =>
    obtain ⟨⟨s, hs, hl⟩, hst⟩ := ho f r rfl
    have st1 : ∀ s' r', Standing (pre ++ [.report f r]) s' r' ↔ (r' = r ∧ s' = s) ∨ Standing pre s' r' := by
      intro s' r'
      rw [standing_snoc]
      constructor
      · rintro (⟨⟨g, hg⟩, q⟩ | ⟨q, _⟩)
        · injection hg with _ hg
          subst hg
          rw [hs] at q
          injection q with q
          exact .inl ⟨rfl, q.symm⟩
        · exact .inr q
      · rintro (⟨rfl, rfl⟩ | q)
        · exact .inl ⟨⟨f, rfl⟩, hs⟩
        · exact .inr ⟨q, by simp [asked]⟩
    have hnew : ∀ c', (∀ s', find c' s' = if s' = s then some r else find c s') → (∀ r', Standing pre s r' → time r' ≤ time r) →
        ∀ s', Newest (pre ++ [.report f r]) s' (find c' s') := by
      intro c' hf hle s'
      rw [hf s']
      by_cases q : s' = s
      · subst q
        rw [if_pos rfl]
        refine ⟨(st1 s' r).2 (.inl ⟨rfl, rfl⟩), fun r' hr' => ?_⟩
        rcases (st1 s' r').1 hr' with ⟨rfl, _⟩ | h1
        · exact Int.le_refl _
        · exact hle r' h1
      · rw [if_neg q]
        exact newest_other (hi.newest s') fun r' => by rw [st1]; simp [q]
    have hstamp : Stamped (replace c s r) := by
      intro e he
      rcases mem_replace he with q | q
      · rw [q]; exact hst
      · exact hi.stamped e q
    have hnamed : ∀ e ∈ replace c s r, e.2.source = some e.1 := by
      intro e he
      have h1 := find_of_mem (keys_replace s r hl hi.keys) (show (e.1, e.2) ∈ _ from he)
      rw [find_replace c s e.1 r hl] at h1
      split at h1
      · rename_i q
        injection h1 with h1
        rw [← h1, q]; exact hs
      · exact hi.named _ (find_mem h1)
    simp only [step, receive, hs, hi.cache] at h
    cases k : find c s with
    | none =>
      simp only [k, Except.map] at h
      injection h with h
      subst h
      refine ⟨replace c s r, rfl, keys_replace s r hl hi.keys, hstamp, hnamed, hnew _ (find_replace c s · r hl) ?_⟩
      intro r' hr'
      have := hi.newest s
      rw [k] at this
      exact absurd hr' (this r')
    | some old =>
      simp only [k] at h
      have ho := hi.newest s
      rw [k] at ho
      have hos : old.stamp.isSome := hi.stamped _ (find_mem k)
      obtain ⟨a, ha⟩ := Option.isSome_iff_exists.1 hst
      obtain ⟨b, hb⟩ := Option.isSome_iff_exists.1 hos
      have ta : time r = a := by unfold time; rw [ha]; rfl
      have tb : time old = b := by unfold time; rw [hb]; rfl
      have hnw : newer r old = decide (a > b) := by unfold newer; rw [ha, hb]
      rw [hnw] at h
      by_cases q : a > b
      · simp only [q, decide_true, if_true, Except.map] at h
        injection h with h
        subst h
        refine ⟨replace c s r, rfl, keys_replace s r hl hi.keys, hstamp, hnamed, hnew _ (find_replace c s · r hl) ?_⟩
        intro r' hr'
        have := ho.2 r' hr'
        omega
      · simp only [q, decide_false, Bool.false_eq_true, if_false, Except.map] at h
        injection h with h
        subst h
        refine ⟨c, hi.cache, hi.keys, hi.stamped, hi.named, fun s' => ?_⟩
        by_cases w : s' = s
        · subst w
          rw [k]
          refine ⟨(st1 s' old).2 (.inr ho.1), fun r' hr' => ?_⟩
          rcases (st1 s' r').1 hr' with ⟨rfl, _⟩ | h1
          · omega
          · exact ho.2 r' h1
        · exact newest_other (hi.newest s') fun r' => by rw [st1]; simp [w]

theorem inv_run (me : Text) : ∀ (ops pre : List (Op α)) (st st' : St α) (c : Cache α), Inv pre st c → AllProper ops → run me st ops = .ok st' →
    ∃ c', Inv (pre ++ ops) st' c'
  | [], pre, st, st', c, hi, _, h => by
    simp only [run] at h
    injection h with h
    subst h
    exact ⟨c, by rw [List.append_nil]; exact hi⟩
  | o :: os, pre, st, st', c, hi, hp, h => by
    simp only [run] at h
    cases k : step me st o with
    | error f => rw [k] at h; simp at h
    | ok st1 =>
      rw [k] at h
      obtain ⟨c1, h1⟩ := inv_step me hi o (fun f r q => hp f r (by rw [q]; exact List.mem_cons_self ..)) k
      have := inv_run me os (pre ++ [o]) st1 st' c1 h1 (fun f r q => hp f r (List.mem_cons_of_mem _ q)) h
      simpa using this

theorem enabled_cache {me : Text} {st : St α} (h : Enabled me st) : st.cache = some [] := by
  rcases h with rfl | rfl <;> rfl

theorem inv_enabled {me : Text} {st : St α} (h : Enabled me st) : Inv [] st ([] : Cache α) := by
  refine ⟨enabled_cache h, by simp [Keys], fun e he => by simp at he, fun e he => by simp at he, fun s r hr => ?_⟩
  obtain ⟨a, b, f, q, _⟩ := hr
  simp at q

/-! ## The table of the pages -/

theorem key_path (p : Text) (hp : p.length ≤ 73) : Http.key 0 p = 48 :: 58 :: p := by
  unfold Http.key
  rw [List.take_of_length_le (by simp [Http.dec]; omega)]
  rfl

theorem pathOf_length (s : Text) : (pathOf s).length ≤ 73 := by unfold pathOf; simp; omega

theorem pathOf_word (s : Text) : pathOf s ≠ word := by
  intro h
  have := congrArg List.length h
  simp [pathOf, slash, word] at this

/-- The hook of the list is only at its own place. -/
def OnlyAll (h : List (Text × Page)) : Prop := ∀ e ∈ h, e.2 = .all → e.1 = Http.key 0 word

theorem onlyAll_register {h : List (Text × Page)} (ho : OnlyAll h) (p : Text) : OnlyAll (Http.register h 0 p .hash) := by
  unfold Http.register
  split
  · exact ho
  · intro e he q
    rcases List.mem_append.1 he with he | he
    · exact ho e he q
    · simp at he; subst he; simp at q

def Hooked (h : List (Text × Page)) (s : Text) : Prop := (h.find? (fun e => e.1 == Http.key 0 (pathOf s))).map (·.2) = some .hash

theorem hooked_register {h : List (Text × Page)} (ho : OnlyAll h) (s : Text) : Hooked (Http.register h 0 (pathOf s) .hash) s := by
  unfold Hooked Http.register
  split
  · rename_i q
    cases k : h.find? (fun e => e.1 == Http.key 0 (pathOf s)) with
    | none =>
      obtain ⟨e, he, w⟩ := List.any_eq_true.1 q
      exact absurd w (by simpa using List.find?_eq_none.1 k e he)
    | some e =>
      have h1 := List.mem_of_find?_eq_some k
      have h2 : e.1 = Http.key 0 (pathOf s) := by simpa using List.find?_some k
      cases w : e.2 with
      | hash => simp [w]
      | all =>
        have := ho e h1 w
        rw [h2, key_path _ (pathOf_length s), key_path _ (by decide)] at this
        simp at this
        exact absurd this (pathOf_word s)
  · rename_i q
    have k : h.find? (fun e => e.1 == Http.key 0 (pathOf s)) = none := by
      rw [List.find?_eq_none]
      intro e he w
      exact q (List.any_eq_true.2 ⟨e, he, w⟩)
    rw [List.find?_append, k]
    simp

theorem hooked_keep {h : List (Text × Page)} {s : Text} (hk : Hooked h s) (m : Nat) (p : Text) (x : Page) : Hooked (Http.register h m p x) s := by
  unfold Hooked at hk ⊢
  unfold Http.register
  split
  · exact hk
  · rw [List.find?_append]
    cases k : h.find? (fun e => e.1 == Http.key 0 (pathOf s)) with
    | none => rw [k] at hk; simp at hk
    | some e => rw [k] at hk; simpa using hk

structure Pages (st : St α) : Prop where
  only : OnlyAll (st.hooks.getD [])
  hooked : ∀ c s r, st.cache = some c → find c s = some r → Hooked (st.hooks.getD []) s

theorem pages_step (me : Text) {pre : List (Op α)} {st st' : St α} {c : Cache α} (hi : Inv pre st c) (hp : Pages st) (o : Op α)
    (ho : ∀ f r, o = .report f r → Proper r) (h : step me st o = .ok st') : Pages st' := by
  cases o with
  | info now own t =>
    simp only [step, getInfo_some hi.cache, Except.map] at h
    injection h with h
    subst h
    exact hp
  | all now own =>
    simp only [step, getAll_stamped hi.cache hi.stamped] at h
    split at h
    · simp [Except.map] at h
    · simp only [Except.map] at h
      injection h with h
      subst h
      refine ⟨hp.only, fun c' s r hc hf => ?_⟩
      simp only [Option.some.injEq] at hc
      subst hc
      rw [find_filter c hi.keys now s] at hf
      cases k : find c s with
      | none => rw [k] at hf; simp at hf
      | some r' => exact hp.hooked c s r' hi.cache k
  | report f r =>
    obtain ⟨⟨s, hs, hl⟩, _⟩ := ho f r rfl
    simp only [step, receive, hs, hi.cache] at h
    cases k : find c s with
    | none =>
      simp only [k, Except.map] at h
      injection h with h
      subst h
      refine ⟨onlyAll_register hp.only _, fun c' s' r' hc hf => ?_⟩
      simp only [Option.some.injEq] at hc
      subst hc
      rw [find_replace c s s' r hl] at hf
      split at hf
      · rename_i q; subst q
        exact hooked_register hp.only s'
      · exact hooked_keep (hp.hooked c s' r' hi.cache hf) _ _ _
    | some old =>
      simp only [k] at h
      split at h
      · simp only [Except.map] at h
        injection h with h
        subst h
        refine ⟨hp.only, fun c' s' r' hc hf => ?_⟩
        simp only [Option.some.injEq] at hc
        subst hc
        rw [find_replace c s s' r hl] at hf
        split at hf
        · rename_i q; subst q
          exact hp.hooked c s' old hi.cache k
        · exact hp.hooked c s' r' hi.cache hf
      · simp only [Except.map] at h
        injection h with h
        subst h
        exact hp

theorem pages_run (me : Text) : ∀ (ops pre : List (Op α)) (st st' : St α) (c : Cache α), Inv pre st c → Pages st → AllProper ops → run me st ops = .ok st' →
    Pages st'
  | [], _, _, _, _, _, hp, _, h => by
    simp only [run] at h
    injection h with h
    subst h
    exact hp
  | o :: os, pre, st, st', c, hi, hg, hp, h => by
    simp only [run] at h
    cases k : step me st o with
    | error f => rw [k] at h; simp at h
    | ok st1 =>
      rw [k] at h
      obtain ⟨c1, h1⟩ := inv_step me hi o (fun f r q => hp f r (by rw [q]; exact List.mem_cons_self ..)) k
      have h2 := pages_step me hi hg o (fun f r q => hp f r (by rw [q]; exact List.mem_cons_self ..)) k
      exact pages_run me os (pre ++ [o]) st1 st' c1 h1 h2 (fun f r q => hp f r (List.mem_cons_of_mem _ q)) h

theorem pages_enabled {me : Text} {st : St α} (h : Enabled me st) : Pages st := by
  refine ⟨?_, fun c s r hc hf => ?_⟩
  · rcases h with rfl | rfl
    · intro e he; simp [enable, initCache] at he
    · have : OnlyAll (Http.register [] 0 word Page.all) := by
        intro e he q
        simp [Http.register] at he
        rw [he]
      exact onlyAll_register this _
  · rw [enabled_cache h] at hc
    injection hc with hc
    subst hc
    simp [find] at hf

theorem hooked_step (me : Text) {st st' : St α} (s : Text) (hp : Hooked (st.hooks.getD []) s) (o : Op α) (h : step me st o = .ok st') :
    Hooked (st'.hooks.getD []) s := by
  cases o with
  | info now own t =>
    simp only [step, getInfo] at h
    split at h
    · unfold myInfo at h
      cases k : st.cache with
      | none => simp [k, Except.map] at h
      | some c => simp only [k, Except.map, Except.ok.injEq] at h; rw [← h]; exact hp
    · simp only [Except.map, fromCache, Except.ok.injEq] at h
      rw [← h]; exact hp
  | all now own =>
    simp only [step, getAll] at h
    split at h
    · simp [Except.map] at h
    · split at h
      · simp [Except.map] at h
      · split at h
        · simp [Except.map] at h
        · simp only [Except.map, Except.ok.injEq] at h
          rw [← h]; exact hp
  | report f r =>
    simp only [step, receive] at h
    split at h
    · simp only [Except.map, Except.ok.injEq] at h
      rw [← h]; exact hp
    · split at h
      · simp [Except.map] at h
      · split at h
        · split at h
          all_goals
            simp only [Except.map, Except.ok.injEq] at h
            rw [← h]; exact hp
        · simp only [Except.map, Except.ok.injEq] at h
          rw [← h]
          exact hooked_keep hp _ _ _

theorem hooked_run (me : Text) (s : Text) : ∀ (ops : List (Op α)) (st st' : St α), Hooked (st.hooks.getD []) s → run me st ops = .ok st' →
    Hooked (st'.hooks.getD []) s
  | [], _, _, hp, h => by
    simp only [run, Except.ok.injEq] at h
    rw [← h]; exact hp
  | o :: os, st, st', hp, h => by
    simp only [run] at h
    cases k : step me st o with
    | error f => rw [k] at h; simp at h
    | ok st1 =>
      rw [k] at h
      exact hooked_run me s os st1 st' (hooked_step me s hp o k) h

theorem split_plain (s : Text) (h : 47 ∉ s) : split s = [s] := by
  induction s with
  | nil => rfl
  | cons c cs ih =>
    simp only [List.mem_cons, not_or] at h
    unfold split
    rw [if_neg (fun q => h.1 q.symm), ih h.2]

theorem dispatch_page {h : List (Text × Page)} {s : Text} (hs : s.length = 64) (hk : Hooked h s) :
    Http.dispatch h (get (pagePath s)) = .call .hash := by
  have hpath : pathOf s = slash ++ s := by
    unfold pathOf
    exact List.take_of_length_le (by simp [slash, hs])
  have e : (get (pagePath s)).path = some (47 :: (slash ++ s)) := rfl
  unfold Http.dispatch
  rw [e]
  simp only []
  rw [show (get (pagePath s)).method = 0 from rfl, ← hpath]
  unfold Hooked at hk
  cases k : h.find? (fun e => e.1 == Http.key 0 (pathOf s)) with
  | none => rw [k] at hk; simp at hk
  | some y => rw [k] at hk; simp at hk; simp [hk]

theorem split_page (s : Text) (h : 47 ∉ s) : split (pagePath s) = [[], word, s] := by
  unfold pagePath word
  simp [split, split_plain s h]

end Np.Sys

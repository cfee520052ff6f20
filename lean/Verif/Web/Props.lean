import Verif.Web.Lemmas
/-! # Properties of web searches -/
namespace Np.Web
open Np.Json (Text Json toJson)
open _root_.Np.Web.Spec

/-! ## C213: a web search lists what was found -/

/-- What is answered is the list of the results, in their order, up to the first that does not fit into 65534 bytes together with those before it. -/
theorem C213_beginning_partial (utf8 : Text → Bool) (fmt : Nat → Text) (size : Result → Nat) (creatable : Text → Bool) (find : Text → List Result) (visits : List Nat)
    (q : Req) (t : Text) (hq : Asks q t) (hc : creatable t = true) (hv : ∀ v ∈ visits, v ≤ 60000) (ts : List Text) (hp : List.Forall₂ (Plain utf8) (find t) ts)
    (hs : ((find t).map size).sum < 2 ^ 32) (hf : 0 < fitting size (find t) 0) :
    ∃ a, handle utf8 fmt size creatable find visits q = .ok a ∧ a.status = .ok ∧ a.body = .arr ((List.zipWith shown (find t) ts).take (fitting size (find t) 0)) := by
  obtain ⟨h1, args, h2, h3⟩ := hq
  have hcl : cleaned visits = false := by
    rw [cleaned, List.any_eq_false]
    intro v hv'
    have := hv v hv'
    simp; omega
  obtain ⟨l, hl, hl'⟩ := collect_ok utf8 size (find t) ts 0 0 (titles utf8 hp) (by omega) (by omega)
  have hj := trees_shown utf8 fmt _ _ hp _ _ hl'
  have hne : l ≠ [] := by
    intro e
    subst e
    have hlen := congrArg List.length hl'
    have hz := hp.length_eq
    cases hr : find t with
    | nil => rw [hr, fitting] at hf; exact absurd hf (by omega)
    | cons r rs =>
      rw [hr] at hz hlen hf
      cases ts with
      | nil => simp at hz
      | cons t ts =>
        simp only [List.map_nil, List.length_nil, List.length_take, List.zipWith_cons_cons, List.length_cons] at hlen
        omega
  have hjson := toJson_trees fmt l _ hne hj
  refine ⟨⟨.ok, .arr ((List.zipWith shown (find t) ts).take (fitting size (find t) 0))⟩, ?_, rfl, rfl⟩
  unfold handle
  rw [h2]
  simp only [h1, Bool.not_true, h3, hc, hcl, Bool.false_eq_true, if_false]
  cases hr : find t with
  | nil => rw [hr, fitting] at hf; exact absurd hf (by omega)
  | cons r rs =>
    rw [hr] at hl hjson
    simp only [hl, hjson]

/-- If all fit, all are listed. -/
theorem C213_all_partial (utf8 : Text → Bool) (fmt : Nat → Text) (size : Result → Nat) (creatable : Text → Bool) (find : Text → List Result) (visits : List Nat)
    (q : Req) (t : Text) (hq : Asks q t) (hc : creatable t = true) (hv : ∀ v ∈ visits, v ≤ 60000) (hr : find t ≠ []) (ts : List Text) (hp : List.Forall₂ (Plain utf8) (find t) ts)
    (hs : ((find t).map size).sum < 65535) :
    ∃ a, handle utf8 fmt size creatable find visits q = .ok a ∧ a.status = .ok ∧ a.body = .arr (List.zipWith shown (find t) ts) := by
  have hfit : ∀ (rs : List Result) (n : Nat), n + (rs.map size).sum < 65535 → fitting size rs n = rs.length := by
    intro rs
    induction rs with
    | nil => intro n _; rfl
    | cons r rs ih =>
      intro n h
      simp only [List.map_cons, List.sum_cons] at h
      rw [fitting, if_pos (by omega), ih _ (by omega), List.length_cons, Nat.add_comm]
  have e := hfit (find t) 0 (by omega)
  obtain ⟨a, h1, h2, h3⟩ := C213_beginning_partial utf8 fmt size creatable find visits q t hq hc hv ts hp (by omega) (by
    rw [e]; exact List.length_pos_iff.2 hr)
  refine ⟨a, h1, h2, ?_⟩
  rw [h3, e, List.take_of_length_le (by simp [Nat.min_le_left])]

/-- "?query_text=wine" and two results, one with the title "A". -/
def ask : Req := ⟨true, some [([120], [121]), (queryText, [119, 105, 110, 101])]⟩
def one : Result := ⟨2, [108], 5, true, .text [65, 0] [9, 9]⟩
def two : Result := ⟨1, [109], 6, true, .missing⟩

example : Asks ask [119, 105, 110, 101] ∧ List.Forall₂ (Plain fun _ => true) [one, two] [[65], []] := by
  refine ⟨⟨rfl, _, rfl, by decide⟩, .cons ⟨.text [65] _ (by simp), rfl, rfl, rfl, by decide⟩ (.cons ⟨.missing, rfl, rfl, rfl, by decide⟩ .nil)⟩

/-- Results beyond are left out, and the answer does not tell: it is the same as if only the first had been found. -/
theorem C213_cut_refuted (utf8 : Text → Bool) (fmt : Nat → Text) (size : Result → Nat) (creatable : Text → Bool) (t : Text) (a b : Result)
    (hb : 65535 ≤ size a + size b) (hs : size a + size b < 2 ^ 32) (u : Text) (hu : HasTitle b.title u) (visits : List Nat) (q : Req) (hq : Asks q t) :
    handle utf8 fmt size creatable (fun _ => [a, b]) visits q = handle utf8 fmt size creatable (fun _ => [a]) visits q := by
  obtain ⟨h1, args, h2, h3⟩ := hq
  unfold handle
  rw [h2]
  simp only [h1, Bool.not_true, h3, collect]
  have e : (0 + size a) % 2 ^ 32 = size a := by rw [Nat.zero_add]; exact Nat.mod_eq_of_lt (by omega)
  rw [e]
  cases ht : titleOf a.title with
  | error f => simp only
  | ok s =>
    simp only [titleOf_has hu]
    rw [Nat.mod_eq_of_lt hs, if_neg (show ¬ size a + size b < 65535 by omega)]

example : (65535 : Nat) ≤ 40000 + 40000 ∧ HasTitle two.title [] := ⟨by decide, .missing⟩

/-- If already the first does not fit, the answer is an object and not a list. -/
theorem C213_no_list_refuted (utf8 : Text → Bool) (fmt : Nat → Text) (size : Result → Nat) (creatable : Text → Bool) (t : Text) (a : Result)
    (ha : 65535 ≤ size a) (hs : size a < 2 ^ 32) (u : Text) (hu : HasTitle a.title u) (q : Req) (hq : Asks q t) (hc : creatable t = true) :
    handle utf8 fmt size creatable (fun _ => [a]) [] q = .ok ⟨.ok, .obj []⟩ := by
  obtain ⟨h1, args, h2, h3⟩ := hq
  unfold handle
  rw [h2]
  simp only [h1, Bool.not_true, h3, collect, hc, cleaned, List.any_nil, Bool.false_eq_true, if_false, titleOf_has hu]
  have e : (0 + size a) % 2 ^ 32 = size a := by rw [Nat.zero_add]; exact Nat.mod_eq_of_lt hs
  rw [e, if_neg (by omega)]
  simp [treeOfList, toJson, Np.Json.loop, Np.Json.finish, Except.map]

/-- A title that does not end with a zero byte is shown with what lies behind it. -/
theorem C213_title_refuted (t behind : Text) (h : 0 ∉ t) (hb : 0 ∉ behind) (rest : Text) : titleOf (.text t (behind ++ 0 :: rest)) = .ok (t ++ behind) := by
  have e : t ++ (behind ++ 0 :: rest) = (t ++ behind) ++ 0 :: rest := by simp
  simp only [titleOf, cstr, e]
  rw [if_pos (by simp), takeWhile_zero]
  simp [h, hb]

/-! ## C214: the status of the answer tells how the search went -/

/-- "OK" is answered if and only if something was found for the text, "bad request" if and only if there are arguments without a text that can be searched for. -/
theorem C214_status_partial (utf8 : Text → Bool) (fmt : Nat → Text) (size : Result → Nat) (creatable : Text → Bool) (find : Text → List Result) (visits : List Nat)
    (q : Req) (a : Answer) (h : handle utf8 fmt size creatable find visits q = .ok a) :
    (a.status = .ok ↔ ∃ t, Asks q t ∧ creatable t = true ∧ find t ≠ []) ∧
    (a.status = .badRequest ↔ q.path = true ∧ q.args ≠ none ∧ ∀ t, Asks q t → creatable t = false) := by
  obtain ⟨path, args⟩ := q
  unfold handle at h
  cases args with
  | none =>
    simp only [Except.ok.injEq] at h
    subst h
    simp [Asks]
  | some args =>
    cases path with
    | false =>
      simp only [Bool.not_false, if_true, Except.ok.injEq] at h
      subst h
      simp [Asks]
    | true =>
      simp only [Bool.not_true, Bool.false_eq_true, if_false] at h
      cases hfind : args.find? fun e => e.1 == queryText with
      | none =>
        rw [hfind] at h
        simp only [Except.ok.injEq] at h
        subst h
        simp [Asks, hfind]
      | some e =>
        have hk : e.1 = queryText := by simpa using List.find?_some hfind
        have asks : ∀ t, Asks ⟨true, some args⟩ t ↔ t = e.2 := by
          intro t
          constructor
          · rintro ⟨_, ar, h1, h2⟩
            simp only [Option.some.injEq] at h1
            subst h1
            rw [hfind, Option.some.injEq] at h2
            rw [h2]
          · rintro rfl
            exact ⟨rfl, args, rfl, by rw [hfind, ← hk]⟩
        rw [hfind] at h
        simp only at h
        cases hc : creatable e.2 with
        | false =>
          simp only [hc, Bool.not_false, if_true, Except.ok.injEq] at h
          subst h
          simp [asks, hc]
        | true =>
          simp only [hc, Bool.not_true, Bool.false_eq_true, if_false] at h
          split at h
          · exact absurd h (by simp)
          · cases hr : find e.2 with
            | nil =>
              rw [hr] at h
              simp only [Except.ok.injEq] at h
              subst h
              simp [asks, hc, hr]
            | cons r rs =>
              rw [hr] at h
              simp only at h
              split at h
              · exact absurd h (by simp)
              · split at h
                · exact absurd h (by simp)
                · simp only [Except.ok.injEq] at h
                  subst h
                  simp [asks, hc, hr]

/-- An answer of the kind "no content" has content, which a client takes for the beginning of the next answer. -/
theorem C214_no_content_refuted (utf8 : Text → Bool) (fmt : Nat → Text) (size : Result → Nat) (creatable : Text → Bool) (hc : creatable [119, 105, 110, 101] = true) :
    ∃ a e d, handle utf8 fmt size creatable (fun _ => []) [] ask = .ok a ∧ a.status = .noContent ∧ a.body = .obj [e, d] := by
  refine ⟨⟨.noContent, problem⟩, _, _, ?_, rfl, rfl⟩
  have : ([([120], [121]), (queryText, [119, 105, 110, 101])] : List (Text × Text)).find? (fun e => e.1 == queryText) = some (queryText, [119, 105, 110, 101]) := by decide
  simp [handle, ask, this, hc, cleaned]

/-! ## C215: no entry can end the process of a web search -/

/-- There is an answer, if the titles of all results are texts with a zero byte at their end or missing. -/
theorem C215_answer_partial (utf8 : Text → Bool) (fmt : Nat → Text) (size : Result → Nat) (creatable : Text → Bool) (find : Text → List Result) (visits : List Nat)
    (hv : ∀ v ∈ visits, v ≤ 60000) (q : Req) (hr : ∀ t, Asks q t → ∀ r ∈ find t, ∃ u, HasTitle r.title u) : ∃ a, handle utf8 fmt size creatable find visits q = .ok a := by
  have hcl : cleaned visits = false := by
    rw [cleaned, List.any_eq_false]
    intro v hv'
    have := hv v hv'
    simp; omega
  obtain ⟨path, args⟩ := q
  unfold handle
  cases args with
  | none => exact ⟨_, rfl⟩
  | some args =>
    cases path with
    | false => exact ⟨_, rfl⟩
    | true =>
      simp only [Bool.not_true, Bool.false_eq_true, if_false]
      cases hfind : args.find? fun e => e.1 == queryText with
      | none => exact ⟨_, rfl⟩
      | some e =>
        have hk : e.1 = queryText := by simpa using List.find?_some hfind
        have hr' := hr e.2 ⟨rfl, args, rfl, by rw [hfind, ← hk]⟩
        simp only
        split
        · exact ⟨_, rfl⟩
        · rw [hcl]
          simp only [Bool.false_eq_true, if_false]
          cases hf : find e.2 with
          | nil => exact ⟨_, rfl⟩
          | cons r rs =>
            rw [hf] at hr'
            obtain ⟨l, h1, h2⟩ := collect_ne utf8 size (r :: rs) 0 0 fun x hx => by
              obtain ⟨u, hu⟩ := hr' x hx
              exact ⟨u, titleOf_has hu⟩
            obtain ⟨b, hb⟩ := Np.Json.loop_safe fmt (treeOfList l) { obj := [], arr := none, useArray := false } (treeOfList_noChar utf8 l h2)
            simp only [h1, toJson, hb, Except.map]
            exact ⟨_, rfl⟩

/-- An entry whose title is a number ends the process of every node at which a web search finds it, whatever else is found. -/
theorem C215_number_refuted (utf8 : Text → Bool) (fmt : Nat → Text) (size : Result → Nat) (creatable : Text → Bool) (find : Text → List Result)
    (q : Req) (t : Text) (hq : Asks q t) (hc : creatable t = true) (before behind : List Result) (r : Result) (n : Int) (hr : r.title = .int n)
    (hb : ∀ r ∈ before, ∃ u, HasTitle r.title u) (hf : find t = before ++ r :: behind) : handle utf8 fmt size creatable find [] q = .error .pointer := by
  obtain ⟨h1, args, h2, h3⟩ := hq
  have hcol := collect_fault utf8 size .pointer r (by rw [hr]; rfl) before behind 0 0 fun x hx => by
    obtain ⟨u, hu⟩ := hb x hx
    exact ⟨u, titleOf_has hu⟩
  unfold handle
  rw [h2]
  simp only [h1, Bool.not_true, h3, hc, cleaned, List.any_nil, Bool.false_eq_true, if_false, hf]
  cases hl : before ++ r :: behind with
  | nil => simp at hl
  | cons x xs =>
    rw [hl] at hcol
    simp only [hcol]

example : [two, ⟨1, [110], 7, true, .int 5⟩, one] = [two] ++ (⟨1, [110], 7, true, .int 5⟩ : Result) :: [one] ∧ HasTitle two.title [] := ⟨rfl, .missing⟩

/-- A title of bytes without a zero byte, and none behind it: memory outside of the entry is read. -/
theorem C215_bytes_refuted (d behind : Text) (h : 0 ∉ d ++ behind) : titleOf (.bin d behind) = .error .outside := by
  simp only [titleOf, cstr]
  rw [if_neg h]

example : 0 ∉ ([255, 254] : Text) ++ [7] := by decide

/-- If the search takes more than a minute and the clean-up comes in between, the process ends. -/
theorem C215_slow_refuted (utf8 : Text → Bool) (fmt : Nat → Text) (size : Result → Nat) (creatable : Text → Bool) (find : Text → List Result)
    (q : Req) (t : Text) (hq : Asks q t) (hc : creatable t = true) (visits : List Nat) (v : Nat) (hv : v ∈ visits) (hlate : 60000 < v) :
    handle utf8 fmt size creatable find visits q = .error .pointer := by
  obtain ⟨h1, args, h2, h3⟩ := hq
  have hcl : cleaned visits = true := by
    rw [cleaned, List.any_eq_true]
    exact ⟨v, hv, by simpa using hlate⟩
  unfold handle
  rw [h2]
  simp only [h1, Bool.not_true, h3, hc, hcl, Bool.false_eq_true, if_false, if_true]

end Np.Web

import Verif.Token.Spec
import Verif.Dhkey.Props
/-! Helper lemmas for the token properties. -/
set_option linter.unusedSimpArgs false
set_option linter.unusedVariables false
namespace Np.Token
open _root_.Np.Token.Spec

theorem flagCmp_iff (a b : BitVec 8) : flagCmp a b = true ↔ HasType a b := by
  simp [flagCmp, HasType]

theorem Spec.SameContent.refl (t : Tok) : SameContent t t := by simp [SameContent]

theorem Spec.SameContent.trans {a b c : Tok} (h1 : SameContent a b) (h2 : SameContent b c) : SameContent a c := by
  simp only [SameContent] at h1 h2 ⊢
  simp [h1, h2]

theorem hashInput_congr {a b : Tok} (h : SameContent a b) : hashInput a = hashInput b := by
  simp only [SameContent] at h
  simp [hashInput, h]

theorem attrHash_congr (E : Env) {a b : Tok} (h : SameContent a b) : attrHash E a = attrHash E b := by
  simp only [SameContent] at h
  simp [attrHash, h]

theorem sigOk_congr (E : Env) {a b : Tok} (h : SameContent a b) : SignatureOk E a ↔ SignatureOk E b := by
  have := hashInput_congr h
  simp only [SameContent] at h
  simp [SignatureOk, this, h]

theorem attrOk_congr (E : Env) {a b : Tok} (h : SameContent a b) : AttributesOk E a ↔ AttributesOk E b := by
  simp only [SameContent] at h
  simp [AttributesOk, h]

theorem thr_congr (E : Env) {a b : Tok} (h : SameContent a b) : ThresholdOk E a ↔ ThresholdOk E b := by
  simp only [SameContent] at h
  simp [ThresholdOk, h]

theorem invalidate_same (t : Tok) : SameContent (invalidate t) t := by simp [SameContent, invalidate]

theorem Spec.Honest.congr {E : Env} {a b : Tok} (h : Honest E b) (hs : SameContent a b) (h1 : a.scope = b.scope)
    (h2 : a.sigVerified = b.sigVerified) (h3 : a.attrVerified = b.attrVerified) : Honest E a :=
  ⟨by rw [h1]; exact h.scope, fun x => (sigOk_congr E hs).2 (h.sig (h2 ▸ x)),
   fun x => (attrOk_congr E hs).2 (h.attr (h3 ▸ x))⟩

theorem Spec.Honest.invalidate {E : Env} {t : Tok} (h : Honest E t) : Honest E (invalidate t) :=
  h.congr (invalidate_same t) rfl rfl rfl

theorem checkSignature_spec (E : Env) (t : Tok) (h : Honest E t) :
    SameContent (checkSignature E t).1 t ∧ Honest E (checkSignature E t).1 ∧
    ((checkSignature E t).2 = true ↔ SignatureOk E t) ∧ (checkSignature E t).1.issuerVerified = t.issuerVerified := by
  unfold checkSignature
  split
  · rename_i hv
    exact ⟨Spec.SameContent.refl t, h, by simp [h.sig hv], rfl⟩
  · split
    · rename_i hv hs
      refine ⟨by simp [SameContent], ⟨h.scope, fun _ => ?_, fun x => ?_⟩, by simp [SignatureOk]; exact hs, rfl⟩
      · exact hs
      · exact h.attr x
    · rename_i hv hs
      refine ⟨invalidate_same t, h.invalidate, ?_, rfl⟩
      simp only [Bool.false_eq_true, false_iff]
      exact hs

theorem attrOk_iff (E : Env) (t : Tok) :
    AttributesOk E t ↔ ∃ h, attrHash E t = some h ∧ E.verify t.attrSignature h t.publicKey = true := by
  unfold AttributesOk attrHash
  cases E.attrSize t.attributes <;> simp

theorem checkAttributes_spec (E : Env) (t : Tok) (h : Honest E t) :
    SameContent (checkAttributes E t).1 t ∧ Honest E (checkAttributes E t).1 ∧
    ((checkAttributes E t).2 = true ↔ AttributesOk E t) ∧
    (checkAttributes E t).1.issuerVerified = t.issuerVerified := by
  unfold checkAttributes
  split
  · rename_i hv
    exact ⟨Spec.SameContent.refl t, h, by simp [h.attr hv], rfl⟩
  · split
    · rename_i hv hn
      refine ⟨invalidate_same t, h.invalidate, ?_, rfl⟩
      simp [attrOk_iff, hn]
    · rename_i hv d hd
      split
      · rename_i hs
        have : AttributesOk E t := (attrOk_iff E t).2 ⟨d, hd, hs⟩
        exact ⟨by simp [SameContent], ⟨h.scope, fun x => h.sig x, fun _ => this⟩, by simp [this], rfl⟩
      · rename_i hs
        refine ⟨invalidate_same t, h.invalidate, ?_, rfl⟩
        simp [attrOk_iff, hd, hs]

theorem checkThreshold_spec (E : Env) (t : Tok) :
    SameContent (checkThreshold E t).1 t ∧ (Honest E t → Honest E (checkThreshold E t).1) ∧
    ((checkThreshold E t).2 = true ↔ (HasType t.type typeIntent → ThresholdOk E t)) ∧
    (checkThreshold E t).1.issuerVerified = t.issuerVerified := by
  unfold checkThreshold
  split
  · rename_i hf
    have hf := (flagCmp_iff _ _).1 hf
    split
    · rename_i mx mg h1 h2
      split
      · rename_i hle
        exact ⟨Spec.SameContent.refl t, id, by simp; intro _; exact ⟨mx, mg, h1, h2, hle⟩, rfl⟩
      · rename_i hle
        refine ⟨invalidate_same t, Honest.invalidate, ?_, rfl⟩
        simp only [Bool.false_eq_true, false_iff]
        intro hh
        obtain ⟨a, b, e1, e2, e3⟩ := hh hf
        rw [h1] at e1; rw [h2] at e2; cases e1; cases e2
        exact hle e3
    · rename_i hno
      refine ⟨invalidate_same t, Honest.invalidate, ?_, rfl⟩
      simp only [Bool.false_eq_true, false_iff]
      intro hh
      obtain ⟨a, b, e1, e2, e3⟩ := hh hf
      exact hno a b e1 e2
  · rename_i hf
    have hf' : ¬ HasType t.type typeIntent := fun h => hf ((flagCmp_iff _ _).2 h)
    exact ⟨Spec.SameContent.refl t, id, by simp [hf'], rfl⟩

theorem isValid_spec (E : Env) (now : BitVec 64) (t : Tok) (ty : TokType) (h : Honest E t) :
    SameContent (isValid E now t ty).1 t ∧ Honest E (isValid E now t ty).1 ∧
    (isValid E now t ty).1.issuerVerified = t.issuerVerified ∧
    ((isValid E now t ty).2 = true ↔
      (HasType t.type ty ∧ dgt now t.expiresAt = false ∧ SignatureOk E t ∧ AttributesOk E t ∧
        (HasType t.type typeIntent → ThresholdOk E t))) := by
  unfold isValid
  split
  · rename_i hf
    refine ⟨invalidate_same t, h.invalidate, rfl, ?_⟩
    have : ¬ HasType t.type ty := fun hh => by simp [(flagCmp_iff _ _).2 hh] at hf
    simp [this]
  · rename_i hf
    have hty : HasType t.type ty := (flagCmp_iff _ _).1 (by simpa using hf)
    split
    · rename_i hx
      exact ⟨invalidate_same t, h.invalidate, rfl, by simp [hx]⟩
    · rename_i hx
      have hx : dgt now t.expiresAt = false := by simpa using hx
      rw [if_pos h.scope]
      obtain ⟨a1, a2, a3, a4⟩ := checkSignature_spec E t h
      cases hc : checkSignature E t with
      | mk t1 b1 =>
        rw [hc] at a1 a2 a3 a4
        cases b1 with
        | false =>
          simp only at a1 a2 a3 a4 ⊢
          exact ⟨a1, a2, a4, by simp [← a3]⟩
        | true =>
          obtain ⟨c1, c2, c3, c4⟩ := checkAttributes_spec E t1 a2
          cases hd : checkAttributes E t1 with
          | mk t2 b2 =>
            rw [hd] at c1 c2 c3 c4
            rw [attrOk_congr E a1] at c3
            cases b2 with
            | false =>
              simp only [hd] at c1 c2 c3 c4 ⊢
              exact ⟨c1.trans a1, c2, c4.trans a4, by simp [← c3]⟩
            | true =>
              obtain ⟨d1, d2, d3, d4⟩ := checkThreshold_spec E t2
              have hsame := c1.trans a1
              have hty2 : t2.type = t.type := hsame.1
              rw [thr_congr E hsame, hty2] at d3
              cases he : checkThreshold E t2 with
              | mk t3 b3 =>
                rw [he] at d1 d2 d3 d4
                cases b3 with
                | false =>
                  simp only [hd, he] at d1 d2 d3 d4 ⊢
                  exact ⟨d1.trans hsame, d2 c2, d4.trans (c4.trans a4), by simp [← d3]⟩
                | true =>
                  simp only [hd, he] at d1 d2 d3 d4 ⊢
                  refine ⟨?_, (d2 c2).congr (by simp [SameContent]) rfl rfl rfl, d4.trans (c4.trans a4), ?_⟩
                  · exact Spec.SameContent.trans (by simp [SameContent]) (d1.trans hsame)
                  · have q3 := a3.1 rfl
                    have q4 := c3.1 rfl
                    have q5 := d3.1 trivial
                    simp only [true_iff]
                    exact ⟨hty, hx, q3, q4, q5⟩

theorem verify_spec (E : Env) (t t' : Tok) (s : Option Tok) (b : Bool) (h : Honest E t)
    (hv : verifySignature E t s = some (t', b)) :
    SameContent t' t ∧ Honest E t' ∧ (b = true → SignatureOk E t ∧ AttributesOk E t) := by
  unfold verifySignature at hv
  obtain ⟨a1, a2, a3, a4⟩ := checkSignature_spec E t h
  cases hc : checkSignature E t with
  | mk t1 b1 =>
    rw [hc] at a1 a2 a3 a4 hv
    cases b1 with
    | false => simp only [Option.some.injEq, Prod.mk.injEq] at hv; rw [← hv.1, ← hv.2]; exact ⟨a1, a2, by simp⟩
    | true =>
      obtain ⟨c1, c2, c3, c4⟩ := checkAttributes_spec E t1 a2
      cases hd : checkAttributes E t1 with
      | mk t2 b2 =>
        rw [hd] at c1 c2 c3 c4
        simp only [hd] at hv
        rw [attrOk_congr E a1] at c3
        have hsame := c1.trans a1
        cases b2 with
        | false =>
          simp only [Option.some.injEq, Prod.mk.injEq] at hv
          rw [← hv.1, ← hv.2]; exact ⟨hsame, c2, by simp⟩
        | true =>
          have q : SignatureOk E t ∧ AttributesOk E t := ⟨a3.1 rfl, c3.1 rfl⟩
          simp only at hv
          split at hv
          · split at hv
            · simp only [Option.some.injEq, Prod.mk.injEq] at hv
              rw [← hv.1, ← hv.2]; exact ⟨(invalidate_same t2).trans hsame, c2.invalidate, by simp⟩
            · simp only [Option.some.injEq, Prod.mk.injEq] at hv
              rw [← hv.1]; exact ⟨hsame, c2, fun _ => q⟩
          · split at hv
            · simp only [Option.some.injEq, Prod.mk.injEq] at hv
              rw [← hv.1]; exact ⟨hsame, c2, fun _ => q⟩
            · split at hv
              · simp only [Option.some.injEq, Prod.mk.injEq] at hv
                rw [← hv.1, ← hv.2]; exact ⟨(invalidate_same t2).trans hsame, c2.invalidate, by simp⟩
              · split at hv
                · simp only [Option.some.injEq, Prod.mk.injEq] at hv
                  rw [← hv.1, ← hv.2]; exact ⟨(invalidate_same t2).trans hsame, c2.invalidate, by simp⟩
                · split at hv
                  · simp only [Option.some.injEq, Prod.mk.injEq] at hv
                    rw [← hv.1, ← hv.2]; exact ⟨(invalidate_same t2).trans hsame, c2.invalidate, by simp⟩
                  · split at hv
                    · simp at hv
                    · split at hv
                      · simp only [Option.some.injEq, Prod.mk.injEq] at hv
                        rw [← hv.1]
                        exact ⟨Spec.SameContent.trans (by simp [SameContent]) hsame,
                          c2.congr (by simp [SameContent]) rfl rfl rfl, fun _ => q⟩
                      · simp only [Option.some.injEq, Prod.mk.injEq] at hv
                        rw [← hv.1, ← hv.2]; exact ⟨(invalidate_same t2).trans hsame, c2.invalidate, by simp⟩
                  · simp at hv

theorem run_spec (E : Env) (ops : List Op) : ∀ (t t' : Tok), Honest E t → run E t ops = some t' →
    SameContent t' t ∧ Honest E t' := by
  induction ops with
  | nil => intro t t' h hr; simp only [run, Option.some.injEq] at hr; rw [← hr]; exact ⟨Spec.SameContent.refl t, h⟩
  | cons o os ih =>
    intro t t' h hr
    simp only [run] at hr
    cases hs : step E t o with
    | none => rw [hs] at hr; simp at hr
    | some t1 =>
      rw [hs] at hr
      have h1 : SameContent t1 t ∧ Honest E t1 := by
        cases o with
        | check now ty =>
          simp only [step, Option.some.injEq] at hs
          have := isValid_spec E now t ty h
          rw [hs] at this; exact ⟨this.1, this.2.1⟩
        | verify s =>
          simp only [step, Option.map_eq_some_iff] at hs
          obtain ⟨⟨t2, b⟩, e1, e2⟩ := hs
          simp only at e2
          have := verify_spec E t t2 s b h e1
          rw [← e2]; exact ⟨this.1, this.2.1⟩
      have h2 := ih t1 t' h1.2 hr
      exact ⟨h2.1.trans h1.1, h2.2⟩

/-! ## decode -/

/-- What decoding never sets: private key, and flags only get cleared. -/
def Clean (t : Tok) : Prop := t.privateKeySet = false ∧ t.sigVerified = false ∧ t.attrVerified = false ∧ t.issuerVerified = false

theorem field_clean {α : Type} {w : WireTree} {k : String} {as : TreeVal → Option α} {must : Bool} {set : Tok → α → Tok}
    {x y : Tok × Bool} (h : field w k as must set x = some y) (hset : ∀ t a, Clean t → Clean (set t a)) (hx : Clean x.1) :
    Clean y.1 := by
  unfold field at h
  split at h
  · split at h
    · simp only [Option.some.injEq] at h; rw [← h]; exact hx
    · simp only [Option.map_eq_some_iff] at h
      obtain ⟨a, _, e⟩ := h
      rw [← e]; exact hset _ _ hx
  · simp only [Option.some.injEq] at h; rw [← h]; exact hx

theorem decode_clean (keyOk : Bytes → Bool) (w : WireTree) (t0 t : Tok) (b : Bool) (h0 : Clean t0)
    (h : decode keyOk w t0 = some (t, b)) : Clean t ∧ t.scope = scopePublic := by
  unfold decode at h
  simp only [Option.bind_eq_bind, Option.bind_eq_some_iff] at h
  obtain ⟨x1, e1, x2, e2, x3, e3, x4, e4, x5, e5, x6, e6, x7, e7, x8, e8, x9, e9, x10, e10, x11, e11, x12, e12, e13⟩ := h
  have c1 := field_clean e1 (fun t a h => h) h0
  have c2 := field_clean e2 (fun t a h => h) c1
  have c3 := field_clean e3 (fun t a h => h) c2
  have c4 := field_clean e4 (fun t a h => h) c3
  have c5 := field_clean e5 (fun t a h => h) c4
  have c6 := field_clean e6 (fun t a h => h) c5
  have c7 := field_clean e7 (fun t a h => h) c6
  have c8 := field_clean e8 (fun t a h => h) c7
  have c9 := field_clean e9 (fun t a h => h) c8
  have c10 := field_clean e10 (fun t a h => h) c9
  have c11 := field_clean e11 (fun t a h => ⟨h.1, rfl, h.2.2⟩) c10
  have c12 : Clean x12.1 := by
    unfold decodeAttrs at e12
    split at e12
    · simp only [Option.bind_eq_some_iff] at e12
      obtain ⟨z, f1, f2⟩ := e12
      have d1 := field_clean f1 (fun t a h => h) c11
      exact field_clean f2 (fun t a h => ⟨h.1, h.2.1, rfl, h.2.2.2⟩) d1
    · simp only [Option.some.injEq] at e12; rw [← e12]; exact c11
  simp only [Option.some.injEq, Prod.mk.injEq] at e13
  rw [← e13.1]
  exact ⟨c12, by simp [updateScope, c12.1]⟩

theorem clean_honest (E : Env) (t : Tok) (h : Clean t) (hs : t.scope = scopePublic) : Honest E t :=
  ⟨by rw [hs]; decide, fun x => by rw [h.2.1] at x; simp at x, fun x => by rw [h.2.2.1] at x; simp at x⟩

/-! ## ids as text -/

theorem hexDigit_byte : ∀ n : Fin 16,
    Char.ofNat (BitVec.ofNat 8 (hexDigit n.val).toNat).toNat = hexDigit n.val := by decide

theorem idText_chars (id : Bytes) : (idText id).map (fun b => Char.ofNat b.toNat) = idStr id := by
  simp only [idText, List.map_map]
  have : ∀ c ∈ idStr id, ((fun b : Byte => Char.ofNat b.toNat) ∘ fun c : Char => BitVec.ofNat 8 c.toNat) c = c := by
    intro c hc
    simp only [idStr, List.mem_flatMap] at hc
    obtain ⟨b, _, hc⟩ := hc
    have hb := b.isLt
    simp only [List.mem_cons, List.not_mem_nil, or_false] at hc
    rcases hc with rfl | rfl
    · exact hexDigit_byte ⟨b.toNat / 16, by omega⟩
    · exact hexDigit_byte ⟨b.toNat % 16, by omega⟩
  rw [List.map_congr_left this]; simp

theorem idText_length (id : Bytes) : (idText id).length = 2 * id.length := by
  simp [idText, idStr_length]

theorem fromHash_idText (id : Bytes) (h : id.length = 32) : fromHash (idText id) = id := by
  unfold fromHash
  have hl : (idText id).length = 64 := by rw [idText_length, h]
  have ht : (idText id).take 64 = idText id := by rw [List.take_of_length_le (by omega)]
  rw [ht, if_neg (by simp [hl]), idText_chars]
  have := C02_round_trip id h []
  rw [List.append_nil] at this
  rw [this]

theorem fromHash_nil : fromHash [] = zeroId := by simp [fromHash]

theorem idField_fromHash (s : Bytes) (h : IdText s) : idField (fromHash s) = s := by
  rcases h with rfl | ⟨id, h1, h2, rfl⟩
  · simp [fromHash_nil, idField]
  · rw [fromHash_idText id h1, idField, if_neg h2]

theorem fromHash_idField (id : Bytes) (h : id.length = 32) : fromHash (idField id) = id := by
  unfold idField
  split
  · rename_i hz; rw [fromHash_nil, hz]
  · exact fromHash_idText id h

theorem idField_length (id : Bytes) (h : id.length = 32) : (idField id).length ≤ 64 := by
  unfold idField
  split
  · simp
  · rw [idText_length, h]; decide

/-! ## the wire tree -/

theorem double_inj (a b : BitVec 64) (h : doubleBytes a = doubleBytes b) : a = b := by
  simp only [doubleBytes, List.cons.injEq, and_true] at h
  obtain ⟨h0, h1, h2, h3, h4, h5, h6, h7⟩ := h
  apply BitVec.eq_of_getLsbD_eq
  intro i hi
  have go : ∀ k, BitVec.extractLsb' k 8 a = BitVec.extractLsb' k 8 b → k ≤ i → i < k + 8 → a.getLsbD i = b.getLsbD i := by
    intro k hk h1 h2
    have := congrArg (fun x => x.getLsbD (i - k)) hk
    simp only [BitVec.getLsbD_extractLsb'] at this
    have e : k + (i - k) = i := by omega
    have e2 : i - k < 8 := by omega
    simpa [e, e2] using this
  by_cases c1 : i < 8; exact go 0 h0 (by omega) (by omega)
  by_cases c2 : i < 16; exact go 8 h1 (by omega) (by omega)
  by_cases c3 : i < 24; exact go 16 h2 (by omega) (by omega)
  by_cases c4 : i < 32; exact go 24 h3 (by omega) (by omega)
  by_cases c5 : i < 40; exact go 32 h4 (by omega) (by omega)
  by_cases c6 : i < 48; exact go 40 h5 (by omega) (by omega)
  by_cases c7 : i < 56; exact go 48 h6 (by omega) (by omega)
  exact go 56 h7 (by omega) (by omega)

end Np.Token

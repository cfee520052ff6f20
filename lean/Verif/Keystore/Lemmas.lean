import Verif.Keystore.Spec
import Verif.Skip.Lemmas5
import Verif.Bloom.Props
/-! # Lemmas about the key store -/
set_option linter.unusedSimpArgs false
set_option linter.unusedVariables false
namespace Np.Keystore
open Np.Token (UserTok)
open Np.Ident (Bytes World St Ret Out fingerprint)
open Np.Skip (Good itemsOf)
open _root_.Np.Keystore.Spec

/-- What a map function is called with, for any comparison: the item where the search ended, and all behind it. -/
theorem map_cut {α : Type} {cmp : α → α → Int} {s : Skip.Sl α} {C : List (Skip.E α)} {H : Nat} (h : Good cmp s C H) (below : α → Bool) :
    ∃ low high : List α, itemsOf C = low ++ high ∧ Skip.map below s = some (low.getLast? :: high.map some) ∧
      (∀ y, low.getLast? = some y → below y = true) ∧ ∀ y, high.head? = some y → below y = false := by
  obtain ⟨u, comp, L, B, h1, hC, hu, hv, hk, hok⟩ := Skip.search_good h fun y => if below y then -1 else 1
  unfold Skip.map
  rw [h1]
  simp only []
  rw [Skip.height_good h]
  by_cases hH : H = 0
  · rw [if_pos hH]
    have hC0 : C = [] := by
      cases hc : C with
      | nil => rfl
      | cons e C' =>
        have heC : e ∈ C := by rw [hc]; simp
        have := h.pos e heC; have := h.low e heC; omega
    exact ⟨[], [], by rw [hC0]; rfl, rfl, by simp, by simp⟩
  · rw [if_neg hH]
    obtain ⟨n, hn, hni, _⟩ := hok
    rw [hn]
    simp only []
    have hDu : ∃ A, Skip.rootE H :: C = A ++ u :: B := by
      rcases hu with ⟨rfl, rfl⟩ | ⟨L0, rfl⟩
      · exact ⟨[], by simp [hC]⟩
      · exact ⟨Skip.rootE H :: L0, by rw [hC]; simp⟩
    obtain ⟨A, hDu⟩ := hDu
    rw [Skip.mapRest_spec s.heap _ h.rep (fun e he => ?_) (s.fresh + 1) A u B hDu
      (fun e he => h.items e (by rw [hC]; simp [he]))
      (by have := h.bound; rw [hC] at this; simp at this; omega)]
    · have hlast : (itemsOf L).getLast? = u.item := by
        rcases hu with ⟨rfl, rfl⟩ | ⟨L0, rfl⟩
        · rfl
        · obtain ⟨z, hz⟩ := Option.isSome_iff_exists.1 (h.items u (by rw [hC]; simp))
          rw [Skip.itemsOf_append]
          simp [itemsOf, hz]
      refine ⟨itemsOf L, itemsOf B, by rw [hC, Skip.itemsOf_append], ?_, ?_, ?_⟩
      · rw [hni, hlast]; rfl
      · intro y hy
        rw [hlast] at hy
        have := hv y hy
        cases hb : below y with
        | true => rfl
        | false => rw [hb] at this; simp at this
      · intro y hy
        cases B with
        | nil => simp [itemsOf] at hy
        | cons e B' =>
          obtain ⟨z, hz⟩ := Option.isSome_iff_exists.1 (h.items e (by rw [hC]; simp))
          have : z = y := by simpa [itemsOf, hz] using hy
          subst this
          have h0 := hk.1
          unfold Skip.val at h0
          rw [hz] at h0
          cases hb : below z with
          | false => rfl
          | true => simp [hb] at h0
    · rcases List.mem_cons.mp he with rfl | he
      · show 0 < H; omega
      · exact h.pos e he

theorem order_compare {K : Lib} (h : MemOk K) : Skip.Spec.Order (compare K) where
  swap a b := h.swap _ _
  trans a b c := h.trans _ _ _

/-- The key store after some calls: `log` is what was returned. -/
structure Inv (K : Lib) (log : List (Call × Ret)) (k : Ks) : Prop where
  good : ∃ C H, Good (compare K) k.list C H ∧ (∀ y ∈ itemsOf C, Stored log y) ∧
    (∀ t, Stored log t → ∃ y ∈ itemsOf C, fingerprint K.env y = fingerprint K.env t) ∧
    ∃ keys : List Dhkey, Bloom.nbRun Bloom.Nb.create (keys.map .add) = some k.allowed ∧ (∀ y ∈ itemsOf C, keyOf (fingerprint K.env y) ∈ keys) ∧
      (itemsOf C).length = keys.length
  denied : k.denied = Bloom.Nb.create

theorem check_cases {K : Lib} {k : Ks} {t : UserTok} {C : List (Skip.E UserTok)} {H : Nat} (hK : MemOk K) (h : Good (compare K) k.list C H) :
    (check K k t = .ok .ok ∧ ∃ y r, itemsOf C = y :: r ∧ fingerprint K.env y = fingerprint K.env t ∧ y.publicKey = t.publicKey) ∨
    check K k t = .ok .unknownError := by
  obtain ⟨low, high, h1, h2, h3, h4⟩ := map_cut h fun y => decide (K.mem (fingerprint K.env t) (fingerprint K.env y) < 0)
  unfold check
  simp only []
  split
  · rw [h2]
    simp only []
    cases hl : low.getLast? with
    | some y =>
      have hb := h3 y hl
      have hne : ¬ fingerprint K.env t = fingerprint K.env y := by
        intro he
        rw [(hK.same _ _).mpr he] at hb
        simp at hb
      right
      simp only [scan, if_neg hne]
    | none =>
      have hl' : low = [] := by simpa using hl
      rw [hl'] at h1
      simp only [scan]
      cases hh : high with
      | nil => right; simp [scan]
      | cons y r =>
        simp only [List.map_cons, scan]
        by_cases he : fingerprint K.env t = fingerprint K.env y
        · rw [if_pos he]
          simp only []
          by_cases hp : y.publicKey = t.publicKey
          · left
            rw [if_pos hp]
            exact ⟨rfl, y, r, by rw [h1, hh]; rfl, he.symm, hp⟩
          · right
            rw [if_neg hp]
        · right
          rw [if_neg he]
  · right; rfl

theorem Spec.Stored.mono {log : List (Call × Ret)} {t : UserTok} (h : Stored log t) (more : List (Call × Ret)) : Stored (log ++ more) t := by
  obtain ⟨w, z, h⟩ := h
  exact ⟨w, z, by simp [h]⟩

theorem init_inv {K : Lib} (files : St) (dir : Nat) : Inv K [] (init files dir) where
  good := ⟨[], _, Skip.init_good _, by simp [itemsOf], fun t h => by obtain ⟨_, _, h⟩ := h; simp at h, [], rfl, by simp [itemsOf], rfl⟩
  denied := rfl

theorem insert_inv {K : Lib} (hK : MemOk K) {log : List (Call × Ret)} {k k' : Ks} {t : UserTok} {z : BitVec 31} {r : Ret} {w : World}
    (h : Inv K log k) (hi : insert K k t z = .ok (r, k')) : Inv K (log ++ [(.store w t z, r)]) k' := by
  obtain ⟨⟨C, H, hg, hs, hc, keys, hk, hkeys, hlen⟩, hd⟩ := h
  obtain ⟨b, l, C', H', ha, hg', hb, hperm⟩ := Skip.add_good (order_compare hK) hg t z
  unfold insert at hi
  rw [ha] at hi
  cases b with
  | false =>
    simp only [Out.ok.injEq, Prod.mk.injEq] at hi
    obtain ⟨rfl, rfl⟩ := hi
    have hex : ∃ y ∈ itemsOf C, compare K y t = 0 := by
      apply Classical.byContradiction
      intro hn
      exact absurd (hb.mpr hn) (by simp)
    rw [if_pos hex] at hperm
    have hst : ∀ t', Stored (log ++ [(Call.store w t z, Ret.invalidOperation)]) t' ↔ Stored log t' := by
      intro t'
      constructor
      · rintro ⟨w', z', hm⟩
        refine ⟨w', z', ?_⟩
        simpa using hm
      · exact fun h => h.mono _
    refine ⟨⟨C', H', hg', ?_, ?_, keys, hk, ?_, by rw [hperm.length_eq, hlen]⟩, hd⟩
    · intro y hy
      rw [hst]
      exact hs y (hperm.mem_iff.mp hy)
    · intro t' ht'
      rw [hst] at ht'
      obtain ⟨y, hy, he⟩ := hc t' ht'
      exact ⟨y, hperm.mem_iff.mpr hy, he⟩
    · intro y hy
      exact hkeys y (hperm.mem_iff.mp hy)
  | true =>
    have hnex := hb.mp rfl
    rw [if_neg hnex] at hperm
    simp only [] at hi
    cases hf : k.allowed.add (keyOf (fingerprint K.env t)) with
    | none => rw [hf] at hi; cases hi
    | some f =>
      rw [hf] at hi
      simp only [Out.ok.injEq, Prod.mk.injEq] at hi
      obtain ⟨rfl, rfl⟩ := hi
      refine ⟨⟨C', H', hg', ?_, ?_, keys ++ [keyOf (fingerprint K.env t)], ?_, ?_,
        by rw [hperm.length_eq, List.length_cons, List.length_append, hlen]; rfl⟩, hd⟩
      · intro y hy
        rcases List.mem_cons.mp (hperm.mem_iff.mp hy) with rfl | hy
        · exact ⟨w, z, by simp⟩
        · exact (hs y hy).mono _
      · intro t' ht'
        obtain ⟨w', z', hm⟩ := ht'
        rcases List.mem_append.mp hm with hm | hm
        · obtain ⟨y, hy, he⟩ := hc t' ⟨w', z', hm⟩
          exact ⟨y, hperm.mem_iff.mpr (List.mem_cons_of_mem _ hy), he⟩
        · simp only [List.mem_singleton, Prod.mk.injEq, Call.store.injEq, and_true] at hm
          obtain ⟨_, rfl, _⟩ := hm
          exact ⟨t', hperm.mem_iff.mpr (by simp), rfl⟩
      · rw [List.map_append, Bloom.run_append, hk]
        simp only [Option.bind_some, List.map_cons, List.map_nil, Bloom.nbRun, Bloom.nbStep, hf]
      · intro y hy
        rcases List.mem_cons.mp (hperm.mem_iff.mp hy) with rfl | hy
        · simp
        · exact List.mem_append_left _ (hkeys y hy)

theorem Inv.files {K : Lib} {log : List (Call × Ret)} {k : Ks} (h : Inv K log k) (f : St) : Inv K log { k with files := f } := ⟨h.good, h.denied⟩

/-- A call that leaves the list as it was and reports no success, or success for a fingerprint that is there. -/
theorem Inv.more {K : Lib} {log : List (Call × Ret)} {k : Ks} (h : Inv K log k) (c : Call) (r : Ret)
    (hr : ∀ w t z, c = .store w t z → r = .ok → ∃ y, Stored log y ∧ fingerprint K.env y = fingerprint K.env t) :
    Inv K (log ++ [(c, r)]) k := by
  obtain ⟨⟨C, H, hg, hs, hc, keys, hk, hkeys, hlen⟩, hd⟩ := h
  refine ⟨⟨C, H, hg, fun y hy => (hs y hy).mono _, ?_, keys, hk, hkeys, hlen⟩, hd⟩
  intro t ht
  obtain ⟨w, z, hm⟩ := ht
  rcases List.mem_append.mp hm with hm | hm
  · exact hc t ⟨w, z, hm⟩
  · simp only [List.mem_singleton, Prod.mk.injEq] at hm
    obtain ⟨y, hy, he⟩ := hr w t z hm.1.symm hm.2.symm
    obtain ⟨y', hy', he'⟩ := hc y hy
    exact ⟨y', hy', he'.trans he⟩

theorem step_inv {K : Lib} (hK : MemOk K) {log : List (Call × Ret)} {k k' : Ks} {c : Call} {r : Ret} (h : Inv K log k)
    (hs : step K k c = .ok (r, k')) : Inv K (log ++ [(c, r)]) k' := by
  cases c with
  | check t =>
    simp only [step] at hs
    split at hs
    · cases hs
      exact h.more _ _ fun w t z he => by cases he
    · cases hs
  | store w t z =>
    simp only [step] at hs
    unfold store at hs
    obtain ⟨C, H, hg, hst, _⟩ := h.good
    rcases check_cases (t := t) hK hg with ⟨hc, y, l, hy, he, _⟩ | hc
    · rw [hc] at hs
      simp only [Out.ok.injEq, Prod.mk.injEq] at hs
      obtain ⟨rfl, rfl⟩ := hs
      refine h.more _ _ fun w' t' z' hcall _ => ?_
      cases hcall
      exact ⟨y, hst y (by rw [hy]; simp), he⟩
    · rw [hc] at hs
      simp only [] at hs
      repeat' split at hs
      all_goals first
        | (cases hs; done)
        | exact insert_inv hK (h.files _) hs
        | (cases hs
           exact (h.files _).more _ _ fun _ _ _ _ hr => by cases hr)

theorem run_inv {K : Lib} (hK : MemOk K) {cs : List Call} : ∀ {log0 log : List (Call × Ret)} {k k' : Ks}, Inv K log0 k →
    run K k cs = .ok (log, k') → Inv K (log0 ++ log) k' := by
  induction cs with
  | nil => intro log0 log k k' h hr; cases hr; simpa using h
  | cons c cs ih =>
    intro log0 log k k' h hr
    simp only [run] at hr
    split at hr
    · cases hr
    · rename_i r k1 hs
      split at hr
      · cases hr
      · rename_i l e hr'
        cases hr
        have := ih (step_inv hK h hs) hr'
        simpa using this

end Np.Keystore

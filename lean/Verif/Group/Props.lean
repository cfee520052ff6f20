import Verif.Group.Lemmas
/-! # Properties of the keys of a channel: C219–C222 -/
namespace Np.Group
open _root_.Np.Group.Spec

variable {Fp Id K : Type} [DecidableEq Fp] [DecidableEq Id]

/-- C219 (partial).  Whatever happened before, and whatever happens afterwards short of losing the receiver's intent: a receiver whose intent comes in while the sender's
newest intent is the announced one has been sent, in a message it can read, the key under which messages are encrypted, under the name that they carry.  Missing: a receiver
whose intent comes in between the making of a new intent and its announcement, `C219_window_refuted` and `C219_first_refuted`. -/
theorem C219_keys_partial (ids : Ids Fp Id) (O R : List Fp) (hf : Free ids O R) (zero f0 : Fp) (k0 : K) (h0 : f0 ∈ O) (r : Fp) (hr : r ∈ R) (a b : List (Op Fp K))
    (hw : Within O R (a ++ b)) (hn : (f0 :: fps (a ++ b)).Nodup) (s : Chan Fp Id K) (ha : run ids (started ids zero f0 k0) a = some s) (ho : s.own = some s.cur)
    (hb : (Op.remove r : Op Fp K) ∉ b) :
    ∃ s' k, run ids s (.add r true :: b) = some s' ∧ sendKey ids s' = some k ∧ Told ids s' O r s'.cur k := by
  rw [List.nodup_cons, fps_append, List.nodup_append] at hn
  obtain ⟨hn0, hna, hnb, hnab⟩ := hn
  have hwa : Within O R a := fun o hx => hw o (List.mem_append_left _ hx)
  have hwb : Within O R b := fun o hx => hw o (List.mem_append_right _ hx)
  obtain ⟨s1, h1, I⟩ := inv_run ids O R hf a [f0] _ (inv_started ids O R hf zero f0 k0 h0) hwa hna (by
    intro f hx e; rw [List.mem_singleton] at e; exact hn0 (e ▸ List.mem_append_left _ hx))
  rw [ha] at h1; cases h1
  obtain ⟨s2, h2⟩ := step_some ids O R _ s I (.add r true)
  have I2 := inv_step ids O R hf _ s s2 _ I (by intro o hx; simp at hx; rw [hx]; exact hr) (by intro f hx; cases hx) h2
  have hdb : ∀ f ∈ fps b, f ∉ fps [(Op.add r true : Op Fp K)] ++ (fps a ++ [f0]) := by
    intro f hx e
    simp only [fps, List.nil_append, List.mem_append, List.mem_singleton] at e
    rcases e with e | e
    · exact hnab f e f hx rfl
    · exact hn0 (e ▸ List.mem_append_right _ hx)
  obtain ⟨s3, h3, _⟩ := inv_run ids O R hf b _ s2 I2 hwb hnb hdb
  have S := served_run ids O R hf r hr b _ s2 s3 I2 hwb hnb hdb hb (served_add ids O R hf _ s s2 I r hr ho h2) h3
  obtain ⟨k, c1, c2⟩ := S.cur
  exact ⟨s3, k, by rw [run, h2]; exact h3, by rw [sendKey, c1]; rfl, c2⟩

/-- C219 (refuted).  A receiver whose intent comes in after the sender made a new intent and before it announced it gets only the key of the intent announced last.  Once
the new one is announced messages are encrypted with a key that nobody was sent. -/
theorem C219_window_refuted (ids : Ids Fp Id) (zero f0 f1 r : Fp) (k0 k1 : K) (hf : Free ids [f0, f1] [r]) (h : f0 ≠ f1) :
    ∃ s, run ids (started ids zero f0 k0) [.refresh f1 k1, .add r true, .announce] = some s ∧ sendKey ids s = some k1 ∧ s.cur = f1 ∧ ∀ m ∈ s.out, m.name ≠ f1 := by
  have a1 : ids.own f0 ≠ ids.own f1 := fun e => h (hf.own f0 (by simp) f1 (by simp) e)
  have a2 : ids.own f0 ≠ ids.priv f0 r := hf.ownPriv f0 (by simp) f0 (by simp) r (by simp)
  have a3 : ids.own f0 ≠ ids.init f0 r := hf.ownInit f0 (by simp) f0 (by simp) r (by simp)
  have a4 : ids.own f1 ≠ ids.priv f0 r := hf.ownPriv f1 (by simp) f0 (by simp) r (by simp)
  have a5 : ids.own f1 ≠ ids.init f0 r := hf.ownInit f1 (by simp) f0 (by simp) r (by simp)
  have a6 : ids.priv f0 r ≠ ids.init f0 r := hf.privInit f0 (by simp) r (by simp) f0 (by simp) r (by simp)
  have a7 : r ≠ f0 := fun e => hf.apart f0 (by simp) (by simp [e])
  rw [started_eq]
  simp [run, step, refresh, add, announce, insert, lookup, replace, sendKey, Sess.key, Sess.isInitial, a1, a2, a3, a4, a5, a6, a7, Ne.symm a1]
  exact h

/-- C219 (refuted).  The same before the first announcement: the receiver is sent nothing at all. -/
theorem C219_first_refuted (ids : Ids Fp Id) (zero f0 r : Fp) (k0 : K) (hf : Free ids [zero, f0] [r]) (h : zero ≠ f0) :
    ∃ s, run ids (Chan.new zero) [.refresh f0 k0, .add r true, .announce] = some s ∧ sendKey ids s = some k0 ∧ s.out = [] := by
  have a1 : ids.own f0 ≠ ids.own zero := fun e => h (hf.own f0 (by simp) zero (by simp) e).symm
  have a4 : ids.own f0 ≠ ids.priv zero r := hf.ownPriv f0 (by simp) zero (by simp) r (by simp)
  have a5 : ids.own f0 ≠ ids.init zero r := hf.ownInit f0 (by simp) zero (by simp) r (by simp)
  have a2 : ids.own zero ≠ ids.priv zero r := hf.ownPriv zero (by simp) zero (by simp) r (by simp)
  have a3 : ids.own zero ≠ ids.init zero r := hf.ownInit zero (by simp) zero (by simp) r (by simp)
  have a6 : ids.priv zero r ≠ ids.init zero r := hf.privInit zero (by simp) r (by simp) zero (by simp) r (by simp)
  have a7 : r ≠ zero := fun e => hf.apart zero (by simp) (by simp [e])
  simp [run, step, refresh, add, announce, insert, lookup, replace, sendKey, Sess.key, Sess.isInitial, Chan.new, a1, a4, a5, a6, a7, Ne.symm a2, Ne.symm a3]

/-- C220 (partial).  A receiver whose intent first came in under the announced intent and is lost before the next announcement is sent no later key, until its intent comes
in again.  Missing: that messages are then encrypted with a new key (`C220_key_refuted`), and receivers that were there over an announcement (`C220_session_refuted`). -/
theorem C220_removed_partial (ids : Ids Fp Id) (O R : List Fp) (hf : Free ids O R) (zero f0 : Fp) (k0 : K) (h0 : f0 ∈ O) (r : Fp) (hr : r ∈ R) (a b c : List (Op Fp K))
    (hw : Within O R (a ++ b ++ c)) (hn : (f0 :: fps (a ++ b ++ c)).Nodup) (ha : ∀ ok, (Op.add r ok : Op Fp K) ∉ a) (hb : (Op.announce : Op Fp K) ∉ b)
    (hc : ∀ ok, (Op.add r ok : Op Fp K) ∉ c) (s1 s2 s3 s4 : Chan Fp Id K) (h1 : run ids (started ids zero f0 k0) a = some s1) (h2 : run ids s1 b = some s2)
    (h3 : step ids s2 (.remove r) = some s3) (h4 : run ids s3 c = some s4) : ∀ m ∈ s4.out, m ∈ s3.out ∨ ∀ f ∈ O, m.to ≠ ids.init f r := by
  rw [List.nodup_cons, fps_append, fps_append, List.nodup_append, List.nodup_append] at hn
  obtain ⟨hn0, ⟨hna, hnb, hnab⟩, hnc, hnabc⟩ := hn
  have hwa : Within O R a := fun o hx => hw o (by simp [hx])
  have hwb : Within O R b := fun o hx => hw o (by simp [hx])
  have hwc : Within O R c := fun o hx => hw o (by simp [hx])
  have I0 := inv_started ids O R hf zero f0 k0 h0
  have da : ∀ f ∈ fps a, f ∉ [f0] := by
    intro f hx e; rw [List.mem_singleton] at e; exact hn0 (e ▸ (by simp [hx]))
  have db : ∀ f ∈ fps b, f ∉ fps a ++ [f0] := by
    intro f hx e
    rcases List.mem_append.1 e with e | e
    · exact hnab f e f hx rfl
    · rw [List.mem_singleton] at e; exact hn0 (e ▸ (by simp [hx]))
  have dc : ∀ f ∈ fps c, f ∉ fps [(Op.remove r : Op Fp K)] ++ (fps b ++ (fps a ++ [f0])) := by
    intro f hx e
    simp only [fps, List.nil_append, List.mem_append, List.mem_singleton] at e
    rcases e with e | e | e
    · exact hnabc f (by simp [e]) f hx rfl
    · exact hnabc f (by simp [e]) f hx rfl
    · exact hn0 (e ▸ (by simp [hx]))
  obtain ⟨s1', h1', I1⟩ := inv_run ids O R hf a _ _ I0 hwa hna da
  rw [h1] at h1'; cases h1'
  obtain ⟨s2', h2', I2⟩ := inv_run ids O R hf b _ _ I1 hwb hnb db
  rw [h2] at h2'; cases h2'
  have I3 := inv_step ids O R hf _ s2 s3 _ I2 (by intro o hx; simp at hx; rw [hx]; exact hr) (by intro f hx; cases hx) h3
  have q0 : ∀ f ∈ O, lookup (started ids zero f0 k0).tree (ids.init f r) = none := by
    intro f hx; rw [started_eq]; simp [lookup, hf.ownInit f0 h0 f hx r hr]
  have q1 : ∀ f ∈ O, lookup s1.tree (ids.init f r) = none := by
    refine run_ind ids O R hf (fun s => ∀ f ∈ O, lookup s.tree (ids.init f r) = none) (fun o => ∀ ok, o ≠ .add r ok) ?_ a _ _ s1 I0 hwa hna da
      (fun o ho ok e => ha ok (e ▸ ho)) q0 h1
    intro done s s' o hI hw _ hg hst hp f hx
    refine Classical.byContradiction fun hne => ?_
    rcases new_init ids O R hf done s s' o hI hw hst f hx r hr hne with e | ⟨_, ok, e⟩
    · exact e (hp f hx)
    · exact hg ok e
  have q2 : s2.cur = s1.cur ∧ ∀ f ∈ O, f ≠ s1.cur → lookup s2.tree (ids.init f r) = none := by
    refine run_ind ids O R hf (fun s => s.cur = s1.cur ∧ ∀ f ∈ O, f ≠ s1.cur → lookup s.tree (ids.init f r) = none) (fun o => o ≠ .announce) ?_ b _ _ s2 I1 hwb hnb db
      (fun o ho e => hb (e ▸ ho)) ⟨rfl, fun f hx _ => q1 f hx⟩ h2
    intro done s s' o hI hw _ hg hst hp
    refine ⟨(cur_step ids s s' o hst hg).trans hp.1, fun f hx hfc => Classical.byContradiction fun hne => ?_⟩
    rcases new_init ids O R hf done s s' o hI hw hst f hx r hr hne with e | ⟨e, _⟩
    · exact e (hp.2 f hx hfc)
    · exact hfc (e.trans hp.1)
  have q3 : ∀ f ∈ O, lookup s3.tree (ids.init f r) = none := by
    intro f hx
    rcases remove_cases ids s2 s3 r h3 with ⟨_, e⟩ | ⟨_, e⟩
    · exact absurd hr (e ▸ hf.apart _ I2.curO)
    · rw [e]; simp only
      rw [lookup_erase]
      split
      · rfl
      · next hne =>
        rw [lookup_erase]
        split
        · rfl
        · exact q2.2 f hx (fun ef => hne (by rw [ef, q2.1]))
  exact (run_ind ids O R hf (fun s => (∀ f ∈ O, lookup s.tree (ids.init f r) = none) ∧ ∀ m ∈ s.out, m ∈ s3.out ∨ ∀ f ∈ O, m.to ≠ ids.init f r)
    (fun o => ∀ ok, o ≠ .add r ok) (by
      intro done s s' o hI hw _ hg hst hp
      refine ⟨fun f hx => Classical.byContradiction fun hne => ?_, fun m hm => ?_⟩
      · rcases new_init ids O R hf done s s' o hI hw hst f hx r hr hne with e | ⟨_, ok, e⟩
        · exact e (hp.1 f hx)
        · exact hg ok e
      · rcases quiet_step ids O R hf done s s' o hI hw hst r hr hg hp.1 m hm with e | e
        · exact hp.2 m e
        · exact Or.inr e) c _ s3 s4 I3 hwc hnc dc (fun o ho ok e => hc ok (e ▸ ho)) ⟨q3, fun m hm => Or.inl hm⟩ h4).2

/-- C220 (refuted).  When a receiver's intent is lost no new key is made: messages are still encrypted with the key that the receiver was sent. -/
theorem C220_key_refuted (ids : Ids Fp Id) (zero f0 r : Fp) (k0 : K) (hf : Free ids [f0] [r]) :
    ∃ s, run ids (started ids zero f0 k0) [.add r true, .remove r] = some s ∧ sendKey ids s = some k0 ∧ Told ids s [f0] r f0 k0 := by
  have a2 : ids.own f0 ≠ ids.priv f0 r := hf.ownPriv f0 (by simp) f0 (by simp) r (by simp)
  have a3 : ids.own f0 ≠ ids.init f0 r := hf.ownInit f0 (by simp) f0 (by simp) r (by simp)
  have a6 : ids.priv f0 r ≠ ids.init f0 r := hf.privInit f0 (by simp) r (by simp) f0 (by simp) r (by simp)
  have a7 : r ≠ f0 := fun e => hf.apart f0 (by simp) (by simp [e])
  rw [started_eq]
  simp [run, step, add, remove, erase, lookup, replace, sendKey, Told, Sess.key, a2, a3, a6, a7]

/-- C220 (refuted).  A receiver that was there when the sender announced its next intent keeps the session made under the old one when its intent is lost, and is sent every
later key through it: here the key `k2` of an intent made after the loss, with which messages are then encrypted. -/
theorem C220_session_refuted (ids : Ids Fp Id) (zero f0 f1 f2 r : Fp) (k0 k1 k2 : K) (hf : Free ids [f0, f1, f2] [r]) (h01 : f0 ≠ f1) (h02 : f0 ≠ f2) (h12 : f1 ≠ f2) :
    ∃ s, run ids (started ids zero f0 k0) [.add r true, .refresh f1 k1, .announce, .remove r, .refresh f2 k2, .announce] = some s ∧ sendKey ids s = some k2 ∧
      Told ids s [f0, f1, f2] r f2 k2 := by
  have o01 : ids.own f0 ≠ ids.own f1 := fun e => h01 (hf.own f0 (by simp) f1 (by simp) e)
  have o02 : ids.own f0 ≠ ids.own f2 := fun e => h02 (hf.own f0 (by simp) f2 (by simp) e)
  have o12 : ids.own f1 ≠ ids.own f2 := fun e => h12 (hf.own f1 (by simp) f2 (by simp) e)
  have a2 : ∀ a ∈ [f0, f1, f2], ∀ b ∈ [f0, f1, f2], ids.own a ≠ ids.priv b r := fun a ha b hb => hf.ownPriv a ha b hb r (by simp)
  have a3 : ∀ a ∈ [f0, f1, f2], ∀ b ∈ [f0, f1, f2], ids.own a ≠ ids.init b r := fun a ha b hb => hf.ownInit a ha b hb r (by simp)
  have a6 : ∀ a ∈ [f0, f1, f2], ∀ b ∈ [f0, f1, f2], ids.priv a r ≠ ids.init b r := fun a ha b hb => hf.privInit a ha r (by simp) b hb r (by simp)
  have a7 : ∀ a ∈ [f0, f1, f2], r ≠ a := fun a ha e => hf.apart a ha (by simp [e])
  have i01 : ids.init f0 r ≠ ids.init f1 r := fun e => h01 (hf.init f0 (by simp) r (by simp) f1 (by simp) r (by simp) e).1
  have p01 : ids.priv f0 r ≠ ids.priv f1 r := fun e => h01 (hf.priv f0 (by simp) r (by simp) f1 (by simp) r (by simp) e).1
  simp only [List.mem_cons, List.not_mem_nil, or_false, forall_eq_or_imp, forall_eq] at a2 a3 a6 a7
  obtain ⟨⟨x1, x2, x3⟩, ⟨x4, x5, x6⟩, x7, x8, x9⟩ := a2
  obtain ⟨⟨y1, y2, y3⟩, ⟨y4, y5, y6⟩, y7, y8, y9⟩ := a3
  obtain ⟨⟨z1, z2, z3⟩, ⟨z4, z5, z6⟩, z7, z8, z9⟩ := a6
  obtain ⟨w1, w2, w3⟩ := a7
  rw [started_eq]
  simp [run, step, add, remove, refresh, announce, insert, erase, lookup, replace, sendKey, Told, Sess.key, Sess.isInitial, *, Ne.symm x1, Ne.symm y1, Ne.symm x4, Ne.symm x2,
    Ne.symm x5, Ne.symm y4, Ne.symm y5, Ne.symm y2, Ne.symm y7, Ne.symm x7, Ne.symm z1, Ne.symm z4, Ne.symm o01, Ne.symm o02, Ne.symm o12, Ne.symm i01, Ne.symm p01]

/-- C221.  Every message with a key of the channel is encrypted for a receiver whose authorized intent came in before, in every history and even if ids clash. -/
theorem C221_only_receivers (ids : Ids Fp Id) (zero : Fp) (l : List (Op Fp K)) (s : Chan Fp Id K) (h : run ids (Chan.new zero) l = some s) :
    ∀ m ∈ s.out, ∃ c r, (Op.add r true : Op Fp K) ∈ l ∧ m.to = ids.init c r :=
  (ours_run ids (fun r => (Op.add r true : Op Fp K) ∈ l) l (Chan.new zero) s (fun _ h => h) ⟨fun e he => (by cases he), fun m hm => (by cases hm)⟩ h).2

/-- C222 (partial).  A new intent sends at most one message for each intent of a receiver that ever came in.  Missing: a bound by the number of receivers,
`C222_growth_refuted`. -/
theorem C222_renewal_partial (ids : Ids Fp Id) (zero : Fp) (l : List (Op Fp K)) (s : Chan Fp Id K) (h : run ids (Chan.new zero) l = some s) (f : Fp) (k : K) :
    (renewal ids s f k).length ≤ adds l := by
  have h1 := initials_run ids l _ s h
  have h2 := renewal_le ids s f k
  have h3 : initials (Chan.new zero : Chan Fp Id K).tree = 0 := rfl
  omega

/-- C222 (refuted).  With a single receiver, after any number of renewals the next one sends a message for each of them, all to the same receiver: the sessions of old
intents are never removed. -/
theorem C222_growth_refuted (ids : Ids Fp Id) (O : List Fp) (r : Fp) (hf : Free ids O [r]) (zero f0 : Fp) (k0 : K) (h0 : f0 ∈ O) (fs : List (Fp × K))
    (hO : ∀ f ∈ fs, f.1 ∈ O) (hn : (f0 :: fs.map (·.1)).Nodup) (g : Fp) (hg : g ∈ O) (k : K) :
    ∃ s, run ids (started ids zero f0 k0) (renewals r fs) = some s ∧ (fs.map fun f => ids.init f.1 r).Nodup ∧
      ∀ f ∈ fs, (⟨ids.init f.1 r, g, some k⟩ : Rekey Fp Id K) ∈ renewal ids s g k := by
  rw [List.nodup_cons] at hn
  have I0 := inv_started ids O [r] hf zero f0 k0 h0
  have hd : ∀ f ∈ fs.map (·.1), f ∉ [f0] := by intro f hx e; rw [List.mem_singleton] at e; exact hn.1 (e ▸ hx)
  obtain ⟨s, hs, _⟩ := inv_run ids O [r] hf (renewals r fs) [f0] _ I0 (within_renewals O [r] r (by simp) fs hO) (by rw [fps_renewals]; exact hn.2)
    (by rw [fps_renewals]; exact hd)
  refine ⟨s, hs, ?_, fun f hx => renewal_told ids O [r] hf s g k hg f.1 (hO f hx) r (by simp)
    (renewals_init ids O [r] hf r (by simp) fs [f0] _ s I0 hO hn.2 hd hs f hx)⟩
  have h2 := hn.2
  rw [List.Nodup, List.pairwise_map] at h2 ⊢
  refine List.Pairwise.imp_of_mem ?_ h2
  intro x y hx hy hne e
  exact hne (hf.init x.1 (hO x hx) r (by simp) y.1 (hO y hy) r (by simp) e).1

/-! Concrete cases, with the ids of the code -/

/-- A fingerprint with a single word that is not zero. -/
def fp (n : BitVec 32) : Dhkey := ⟨n, 0, 0, 0, 0, 0, 0, 0⟩

/-- The ids of two own intents and two receivers do not clash: C219, C220 and C222. -/
theorem free_real : Free real [fp 1, fp 7] [fp 21, fp 45] := by
  constructor <;> decide

/-- Nor do those of three own intents and one receiver: `C220_session_refuted`. -/
theorem free_three : Free real [fp 1, fp 7, fp 67] [fp 21] := by
  constructor <;> decide

/-- C219: two receivers, a renewal and the loss of the other receiver. -/
example : ∃ s' k, run real (started real (fp 0) (fp 1) 100) (.add (fp 21) true :: [.add (fp 45) true, .refresh (fp 7) 200, .announce, .remove (fp 45)]) = some s' ∧
    sendKey real s' = some k ∧ Told real s' [fp 1, fp 7] (fp 21) s'.cur k :=
  C219_keys_partial real [fp 1, fp 7] [fp 21, fp 45] free_real (fp 0) (fp 1) 100 (by decide) (fp 21) (by decide) []
    [.add (fp 45) true, .refresh (fp 7) 200, .announce, .remove (fp 45)] (by intro o h; simp at h; rcases h with h | h | h | h <;> subst h <;> decide) (by decide) _ rfl
    (by rw [started_eq]) (by simp [fp])

/-- C219, refuted: a channel that goes on for a while. -/
example : ∃ s, run real (started real (fp 0) (fp 1) 100) [.refresh (fp 7) 200, .add (fp 21) true, .announce] = some s ∧ sendKey real s = some 200 ∧ s.cur = fp 7 ∧
    ∀ m ∈ s.out, m.name ≠ fp 7 :=
  C219_window_refuted real (fp 0) (fp 1) (fp 7) (fp 21) 100 200 (by constructor <;> decide) (by decide)

/-- C220, refuted. -/
example : ∃ s, run real (started real (fp 0) (fp 1) 100) [.add (fp 21) true, .refresh (fp 7) 200, .announce, .remove (fp 21), .refresh (fp 67) 300, .announce] = some s ∧
    sendKey real s = some 300 ∧ Told real s [fp 1, fp 7, fp 67] (fp 21) (fp 67) 300 :=
  C220_session_refuted real (fp 0) (fp 1) (fp 7) (fp 67) (fp 21) 100 200 300 free_three (by decide) (by decide) (by decide)

/-- C220, partial: the receiver comes, the next key is made, the receiver is lost, the next intent is announced and the other receiver comes. -/
example : ∃ s1 s2 s3 s4, run real (started real (fp 0) (fp 1) 100) [.add (fp 45) true] = some s1 ∧ run real s1 [.add (fp 21) true] = some s2 ∧
    step real s2 (.remove (fp 21)) = some s3 ∧ run real s3 [.refresh (fp 7) 200, .announce, .add (fp 45) true] = some s4 ∧ s3.out.length = 2 ∧ s4.out.length = 4 :=
  ⟨_, _, _, _, rfl, rfl, rfl, rfl, rfl, rfl⟩

/-- C221: two messages. -/
example : ∃ s, run real (Chan.new (fp 0)) [.refresh (fp 1) 100, .announce, .add (fp 21) true, .refresh (fp 7) 200] = some s ∧ s.out.length = 2 :=
  ⟨_, rfl, rfl⟩

/-- C222: the bound is reached. -/
example : ∃ s, run real (Chan.new (fp 0)) [.refresh (fp 1) 100, .announce, .add (fp 21) true, .refresh (fp 7) 200, .announce, .add (fp 21) true] = some s ∧
    (renewal real s (fp 67) 300).length = 2 :=
  ⟨_, rfl, rfl⟩

/-- C222, refuted: two renewals. -/
example : ∃ s, run real (started real (fp 0) (fp 1) 100) (renewals (fp 21) [(fp 7, 200), (fp 67, 300)]) = some s ∧
    ([(fp 7, 200), (fp 67, 300)].map fun f => real.init f.1 (fp 21)).Nodup ∧
      ∀ f ∈ [(fp 7, 200), (fp 67, 300)], (⟨real.init f.1 (fp 21), fp 131, some 400⟩ : Rekey Dhkey Dhkey Nat) ∈ renewal real s (fp 131) 400 :=
  C222_growth_refuted real [fp 1, fp 7, fp 67, fp 131] (fp 21) (by constructor <;> decide) (fp 0) (fp 1) 100 (by decide) _ (by decide) (by decide) (fp 131) (by decide) 400

end Np.Group

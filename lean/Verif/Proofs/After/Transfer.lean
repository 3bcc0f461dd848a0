import Verif.Proofs.After.Ops
import Verif.Proofs.Transfer.Rel
import Verif.Proofs.Writer.Sticky
/-!
# `transfer_to` in arbitrary states

The same as `Verif.Proofs.After.Ops` for `transfer_to`, with an arbitrary writer and an arbitrary underlying `Write`.
-/

namespace Verif.Transfer
open Reader Writer Utf8
open Abs (St Low readStringBytes_low)
open Abs.After hiding W

variable {α β : Type} {s : St}

/-- what is known about a result -/
def UpPost (Q : α → St → Prop) (r : Except TErr α × (St × Core)) : Prop :=
  match r.1 with
  | .ok a => Q a r.2.1
  | .error (.reader e) => G e r.2.1
  | .error (.writer _) => Abs.After.W r.2.1

/-- all results, whatever the writer and the underlying `Write` do -/
def XUp (m : X AbsSrc α) (s : St) (Q : α → St → Prop) : Prop := ∀ c, (m.run (s, c)).All (UpPost Q)

theorem XUp.post {m : X AbsSrc α} {P Q : α → St → Prop} (h : XUp m s P) (hQ : ∀ a s', P a s' → Q a s') : XUp m s Q := by
  refine fun c => (h c).mono ?_
  rintro ⟨r, s', c'⟩ hp
  match r, hp with
  | .ok a, hp => exact hQ _ _ hp
  | .error (.reader e), hp => exact hp
  | .error (.writer e), hp => exact hp

theorem XUp.bind {m : X AbsSrc α} {f : α → X AbsSrc β} {P : α → St → Prop} {Q : β → St → Prop} (h : XUp m s P) (hf : ∀ a s', P a s' → XUp (f a) s' Q) : XUp (m >>= f) s Q := by
  intro c
  rw [T.run_bind]
  refine (h c).bind ?_
  rintro ⟨r, s', c'⟩ hp
  match r, hp with
  | .ok a, hp => exact hf a s' hp c'
  | .error (.reader e), hp => exact hp
  | .error (.writer e), hp => exact hp

theorem XUp.pure {a : α} {Q : α → St → Prop} (h : Q a s) : XUp (pure a) s Q := fun _ => h

theorem XUp.get {f : St × Core → X AbsSrc α} {Q : α → St → Prop} (h : ∀ c, XUp (f (s, c)) s Q) : XUp (T.get >>= f) s Q := fun c => h c c

theorem XUp.ite {p : Prop} [Decidable p] {a b : X AbsSrc α} {Q : α → St → Prop} (ha : p → XUp a s Q) (hb : ¬ p → XUp b s Q) : XUp (if p then a else b) s Q := by
  by_cases h : p
  · rw [if_pos h]; exact ha h
  · rw [if_neg h]; exact hb h

theorem XUp.reader {m : R AbsSrc α} {Q : α → St → Prop} (h : Up m s Q) : XUp (onReader m) s Q := by
  intro c
  unfold onReader
  dsimp only
  cases hr : m.run s with
  | ok a s' => exact h.ok hr
  | err e s' => exact h.err hr

theorem XUp.rbind {m : R AbsSrc α} {f : α → X AbsSrc β} {P : α → St → Prop} {Q : β → St → Prop} (h : Up m s P) (hf : ∀ a s', P a s' → XUp (f a) s' Q) : XUp (onReader m >>= f) s Q :=
  XUp.bind (.reader h) hf

theorem XUp.writer {m : W α} (hw : Abs.After.W s) : XUp (onWriter m) s (fun _ s' => s' = s) := by
  intro c
  refine (Tree.all_true (m.run c)).bind ?_
  rintro ⟨r, c'⟩ _
  cases r with
  | ok a => exact rfl
  | error e => exact hw

theorem XUp.wbind {m : W α} {f : α → X AbsSrc β} {Q : β → St → Prop} (hw : Abs.After.W s) (hf : ∀ a, XUp (f a) s Q) : XUp (onWriter m >>= f) s Q :=
  XUp.bind (.writer hw) fun a _ e => e ▸ hf a

/-! ## Strings -/

theorem fill_low : ∀ (n : Nat) {out : Bytes} {s : St}, (∃ t, out = enc t) → out.length ≤ transferBufSize → transferBufSize - out.length ≤ n → 0 < n →
    Low (transferFill n out) s (fun p s' => (∃ t, p.2 = enc t) ∧ s'.src.rest.length ≤ s.src.rest.length ∧
      ((p.1 = true ∨ transferBufSize - out.length ≥ maxBytesPerChar) → s'.src.rest.length + 1 ≤ s.src.rest.length))
  | 0, _, _, _, _, _, hn => absurd hn (Nat.not_lt_zero _)
  | n + 1, out, s, ⟨t, ht⟩, ho, hn, _ => by
    unfold transferFill
    refine Wp.ite (fun hs => ?_) fun hs => Wp.pure ⟨.refl _, ⟨t, ht⟩, Nat.le_refl _, fun h => ?_⟩
    · refine Wp.bind' readStringBytes_low ?_
      rintro ⟨e, bs⟩ s1 ⟨hf, hl, hp⟩
      have hlen : bs.length ≤ maxBytesPerChar ∧ (e = false → 0 < bs.length) ∧ ∃ t, bs = enc t := by
        rcases hp with hp | ⟨c, hp⟩
        · cases hp
          exact ⟨Nat.zero_le _, nofun, [], rfl⟩
        · cases hp
          exact ⟨(encChar_length c).2, fun _ => (encChar_length c).1, [c], by simp [enc]⟩
      obtain ⟨h1, h2, t', h3⟩ := hlen
      dsimp only
      have hout : ∃ t, out ++ bs = enc t := ⟨t ++ t', by rw [ht, h3, enc_append]⟩
      unfold transferBufSize maxBytesPerChar at *
      rw [if_neg (by omega)]
      refine Wp.ite (fun _ => Wp.pure ⟨hf, hout, by omega, fun _ => hl⟩) fun he => ?_
      have h2 := h2 (by simpa using he)
      refine (fill_low n (out := out ++ bs) (s := s1) hout (by rw [List.length_append]; unfold transferBufSize; omega) (by rw [List.length_append]; unfold transferBufSize; omega) (by omega)).mono ?_ ?_
      · rintro p s2 ⟨g1, g2, g3, g4⟩
        exact ⟨hf.trans g1, g2, by omega, fun _ => by omega⟩
      · rintro e s2 ⟨g1, g2⟩
        exact ⟨g1, hf.trans g2⟩
    · rcases h with h | h
      · cases h
      · exact absurd h hs

theorem piece_low : Low transferPiece s (fun _ s' => s'.src.rest.length + 1 ≤ s.src.rest.length) := by
  unfold transferPiece
  refine Wp.bind' (fill_low transferBufSize (out := []) ⟨[], rfl⟩ (by decide) (by decide) (by decide)) ?_
  rintro ⟨e, bs⟩ s1 ⟨hf, ⟨t, rfl⟩, _, hl⟩
  dsimp only
  rw [toStrUnchecked, decodeUtf8_enc]
  exact Wp.pure ⟨hf, hl (.inr (by decide))⟩

/-- while a string is read -/
structure InString (s : St) : Prop where
  wf : WF s
  peeked : s.peeked = none
  name : s.expectsMemberName = false

theorem InString.w (h : InString s) : Abs.After.W s := h.wf.w h.peeked

theorem transferStringLoop_up : ∀ {n : Nat} {s : St}, InString s → s.src.rest.length < n →
    XUp (transferStringLoop n) s (fun _ s' => InString s' ∧ s'.stack = s.stack ∧ s'.src.rest.length ≤ s.src.rest.length)
  | 0, _, _, hn => absurd hn (Nat.not_lt_zero _)
  | n + 1, s, h, hn => by
    unfold transferStringLoop
    refine XUp.rbind (Low.up piece_low h.wf h.peeked) ?_
    rintro ⟨e, t⟩ s1 ⟨hf, hl⟩
    have h1 : InString s1 := ⟨h.wf.fr hf, hf.peeked.trans h.peeked, hf.emn.trans h.name⟩
    refine XUp.wbind h1.w fun _ => XUp.ite (fun _ => XUp.pure ⟨h1, hf.stack, by omega⟩) fun _ => ?_
    refine (transferStringLoop_up h1 (by omega)).post ?_
    rintro _ s2 ⟨h2, h3, h4⟩
    exact ⟨h2, h3.trans hf.stack, by omega⟩

theorem transferString_up (hw : Abs.After.W s) : XUp transferString s (fun _ s' => Vl s s') := by
  unfold transferString
  refine XUp.rbind (start_up hw) ?_
  rintro p s1 ⟨h1, h2, h3, h4, ⟨s2, h5⟩, h6⟩
  rw [if_neg (by rintro rfl; cases h5)] at h6
  refine XUp.wbind (h1.w h3) fun _ => XUp.get fun c => ?_
  refine XUp.bind (transferStringLoop_up ⟨h1, h3, h4⟩ (by have := pot_lt_fuel s1; unfold pot at this; omega)) ?_
  rintro _ s2 ⟨e1, e2, e3⟩
  refine XUp.wbind e1.w fun _ => XUp.reader ?_
  exact (onValueEnd_val e1.wf e1.peeked e1.name (e2.trans h2.stack) (show s2.src.rest.length + 1 ≤ pot s by omega)).post fun _ _ h => h.1

theorem transferStart_up (hw : Abs.After.W s) : XUp transferStart s (fun d s' => Part s d s') := by
  unfold transferStart
  refine XUp.rbind (peek_up hw) ?_
  rintro t s1 ⟨h1, h2, h3⟩
  have val : ∀ {β : Type} {m : R AbsSrc β} {f : β → W Unit}, Up m s1 (fun _ s' => Vl s1 s') →
      XUp (do let x ← onReader m; onWriter (f x); pure 0 : X AbsSrc Nat) s1 (fun d s' => Part s d s') := by
    intro β m f hm
    refine XUp.rbind hm ?_
    rintro x s2 h
    exact XUp.wbind h.1 fun _ => XUp.pure ⟨h.1, by have := h.pot; omega, [], rfl, h.2.1.trans h2.stack⟩
  cases t with
  | array =>
    refine XUp.rbind (beginArray_up h1) ?_
    rintro _ s2 ⟨e1, e2, e3, e4⟩
    exact XUp.wbind e1 fun _ => XUp.pure ⟨e1, by omega, [.array], rfl, by rw [e2, h2.stack]; rfl⟩
  | object =>
    refine XUp.rbind (beginObject_up h1) ?_
    rintro _ s2 ⟨e1, e2, e3, e4⟩
    exact XUp.wbind e1 fun _ => XUp.pure ⟨e1, by omega, [.object], rfl, by rw [e2, h2.stack]; rfl⟩
  | string =>
    refine XUp.bind (transferString_up h1) ?_
    rintro _ s2 h
    exact XUp.pure ⟨h.1, by have := h.pot; omega, [], rfl, h.2.1.trans h2.stack⟩
  | number => exact val (nextNumberAsStr_up h1)
  | boolean => exact val (nextBool_up h1)
  | null => exact val (nextNull_up h1)

theorem transferEnd_up (hw : Abs.After.W s) : XUp transferEnd s (fun _ s' => End s s') := by
  unfold transferEnd
  refine XUp.get fun c => XUp.ite (fun _ => ?_) fun _ => ?_
  · refine XUp.rbind (endArray_up hw) ?_
    exact fun _ s' h => (XUp.writer h.1).post fun _ _ e => e ▸ h
  · refine XUp.rbind (endObject_up hw) ?_
    exact fun _ s' h => (XUp.writer h.1).post fun _ _ e => e ▸ h

theorem transferName_up (hw : Abs.After.W s) : XUp transferName s (fun _ s' => Abs.After.W s' ∧ s'.stack = s.stack ∧ pot s' ≤ pot s) := by
  unfold transferName
  refine XUp.get fun c => XUp.ite (fun _ => ?_) fun _ => XUp.pure ⟨hw, rfl, Nat.le_refl _⟩
  refine XUp.rbind (nextName_up hw) ?_
  exact fun _ s' h => (XUp.writer h.1).post fun _ _ e => e ▸ ⟨h.1, h.2.1, by have := h.pot; omega⟩

theorem transferLoop_up {base : List StackValue} : ∀ {n d : Nat} {s : St}, Abs.After.W s → pot s < n → (∃ pre, pre.length = d ∧ s.stack = pre ++ base) →
    XUp (transferLoop n d) s (fun _ s' => Abs.After.W s')
  | 0, d, s, hw, hn, hb => absurd hn (Nat.not_lt_zero _)
  | n + 1, d, s, hw, hn, hb => by
    unfold transferLoop
    refine XUp.rbind (atContainerEnd_up hw) ?_
    rintro b s1 ⟨h1, h2, h3, h4⟩
    obtain ⟨pre, hp1, hp2⟩ := hb
    refine XUp.bind (P := fun d' s' => Abs.After.W s' ∧ pot s' + 1 ≤ pot s ∧ ∃ pre, pre.length = d' ∧ s'.stack = pre ++ base) (XUp.ite (fun hb => ?_) fun _ => ?_) ?_
    · refine XUp.bind (transferEnd_up h1) ?_
      rintro _ s2 h
      have hd := h4 hb
      refine XUp.pure ⟨h.1, by have := h.pot; omega, pre.tail, by rw [List.length_tail, hp1], ?_⟩
      rw [h.2.1, h2, hp2]
      cases pre with
      | nil => subst hp1; cases hd
      | cons => rfl
    · refine XUp.bind (transferName_up h1) ?_
      rintro _ s2 ⟨e1, e2, e3⟩
      refine XUp.bind (transferStart_up e1) ?_
      rintro d' s3 ⟨f1, f2, pre', f3, f4⟩
      refine XUp.pure ⟨f1, by omega, pre' ++ pre, by rw [List.length_append, f3, hp1, Nat.add_comm], ?_⟩
      rw [f4, e2, h2, hp2, List.append_assoc]
    · rintro d' s2 ⟨e1, e2, pre', e3, e4⟩
      exact XUp.ite (fun _ => XUp.pure e1) fun _ => transferLoop_up e1 (by omega) ⟨pre', e3, e4⟩

theorem transferTo_up (hw : Abs.After.W s) : XUp transferTo s (fun _ s' => Abs.After.W s') := by
  unfold transferTo
  exact XUp.get fun c => XUp.ite (fun _ => XUp.reader Up.usage) fun _ => transferLoop_up hw (pot_lt_fuel s) ⟨[], rfl, rfl⟩

end Verif.Transfer

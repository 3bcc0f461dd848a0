import Verif.Proofs.Abs.Reach
import Verif.Proofs.Abs.Complete
/-! # Peeking is not noticed by later calls -/

namespace Verif.Abs
open Reader Utf8 Json Usage

variable {st : Settings} {inp : Bytes} {g : Prop} {c : Ctx} {s s' : St} {m : Mode} {op : Op} {o : Option Peeked}

/-- `s'` is reached from `s` by peeking -/
structure Pk (o : Option Peeked) (s s' : St) : Prop where
  run : peekInternalOptional.run s = .ok o s'
  run' : peekInternalOptional.run s' = .ok o s'
  emn : s'.expectsMemberName = s.expectsMemberName
  stack : s'.stack = s.stack
  isEmpty : s'.isEmpty = s.isEmpty
  sra : s'.stringReaderActive = s.stringReaderActive
  settings : s'.settings = s.settings
  fuel : fuel s' ≤ fuel s

theorem fuel_le {pos pos' : Pos} {pk pk' : Option Peeked} {x y : Bytes} : fuel (stp st c pos' pk' y) ≤ fuel (stp st c pos pk (x ++ y)) := by
  show y.length + 2 ≤ (x ++ y).length + 2
  simp

theorem At.pk (h : At st inp g c s) (hr : peekInternalOptional.run s = .ok o s') (ho : o ≠ none ∨ s.stack = []) : Pk o s s' := by
  by_cases hc : CanPeek st c
  · cases h with
    | p h =>
      cases pio_pk.symm.trans hr
      exact ⟨pio_pk, pio_pk, rfl, rfl, rfl, rfl, rfl, Nat.le_refl _⟩
    | @n pos r h =>
      have hw := pio_lo (pos := pos) hc h.bare
      unfold Lo Wp at hw
      rw [hr] at hw
      rcases hw with ⟨p, l, r, hl, hf, rfl, rfl, rfl⟩ | ⟨he, rfl, rfl⟩
      · exact ⟨hr, pio_pk, rfl, rfl, rfl, rfl, rfl, by rw [← List.append_assoc]; exact fuel_le⟩
      · refine ⟨hr, ?_, rfl, rfl, rfl, rfl, rfl, by have := fuel_le (st := st) (c := c) (pos := pos) (pos' := pos.over r) (pk := none) (pk' := none) (x := r) (y := []); rwa [List.append_nil] at this⟩
        rcases ho with ho | ho
        · exact absurd rfl ho
        · cases c with
          | top => exact (pio_eof hc ⟨⟨[], none⟩, ⟨nofun, nofun⟩, rfl⟩).trans rfl
          | arr | obj | val => cases ho
  · obtain ⟨p, s1, h1⟩ := pio_panics h.looks hc
    cases h1.symm.trans hr

/-! ## Same results -/

/-- The same result; after a panic the state does not matter -/
def Same {α : Type} (r r' : Res RErr St α) : Prop := r = r' ∨ ∃ p s1 s2, r = .err (.panic p) s1 ∧ r' = .err (.panic p) s2

theorem Same.bind {α β : Type} {m : R AbsSrc α} {f : α → R AbsSrc β} (h : Same (m.run s) (m.run s')) : Same ((m >>= f).run s) ((m >>= f).run s') := by
  rcases h with h | ⟨p, s1, s2, h1, h2⟩
  · exact .inl (bind_congr h)
  · exact .inr ⟨p, s1, s2, M.bind_err h1, M.bind_err h2⟩

theorem Same.get {α : Type} {f : St → R AbsSrc α} (h : Same ((f s).run s) ((f s').run s')) : Same ((M.get >>= f).run s) ((M.get >>= f).run s') := by
  rw [run_get, run_get]
  exact h

theorem Same.panic {α : Type} {p : UsagePanic} : Same ((usagePanic p : R AbsSrc α).run s) ((usagePanic p : R AbsSrc α).run s') := .inr ⟨_, _, _, rfl, rfl⟩

namespace Pk
variable (h : Pk o s s')
include h

theorem pi : peekInternal.run s = peekInternal.run s' := bind_congr (h.run.trans h.run'.symm)

theorem peek : Same (peek.run s) (peek.run s') := by
  unfold Reader.peek
  refine Same.get ?_
  rw [h.emn]
  split
  · exact Same.panic
  · exact .inl (bind_congr h.pi)

theorem sev {t : ValueType} {chk : Bool} : Same ((startExpectedValueType t chk).run s) ((startExpectedValueType t chk).run s') := by
  unfold startExpectedValueType
  refine Same.get ?_
  rw [h.emn]
  split
  · exact Same.panic
  · exact .inl (bind_congr h.pi)

theorem isInArray : isInArray s' = isInArray s := by unfold Reader.isInArray; rw [h.stack]
theorem isInObject : isInObject s' = isInObject s := by unfold Reader.isInObject; rw [h.stack]
theorem expectsMemberValue : expectsMemberValue s' = expectsMemberValue s := by unfold Reader.expectsMemberValue; rw [h.isInObject, h.emn]

theorem endArray : Same (endArray.run s) (endArray.run s') := by
  unfold Reader.endArray
  refine Same.get ?_
  rw [h.isInArray]
  split
  · exact Same.panic
  · exact .inl (bind_congr h.pi)

theorem endObject : Same (endObject.run s) (endObject.run s') := by
  unfold Reader.endObject
  refine Same.get ?_
  rw [h.isInObject, h.expectsMemberValue]
  split
  · exact Same.panic
  · split
    · exact Same.panic
    · exact .inl (bind_congr h.pi)

theorem hasNext : Same (hasNext.run s) (hasNext.run s') := by
  unfold Reader.hasNext
  refine Same.get ?_
  rw [h.expectsMemberValue, h.stack, h.isEmpty, h.settings]
  split
  · exact Same.panic
  · refine Same.bind ?_
    split
    · split
      · exact Same.panic
      · split
        · exact Same.panic
        · exact .inl (h.run.trans h.run'.symm)
    · exact .inl (bind_congr h.pi)

theorem beforeName : Same (beforeName.run s) (beforeName.run s') := by
  unfold Reader.beforeName
  refine Same.get ?_
  rw [h.emn, h.sra]
  split
  · exact Same.panic
  · split
    · exact Same.panic
    · exact h.hasNext.bind

theorem skipValueStart : Same (skipValueStart.run s) (skipValueStart.run s') := h.peek.bind

end Pk

/-! ## Fuel -/

theorem skipValueLoop_mono : ∀ {n k d : Nat} {s : St}, n ≤ k → (∀ s1, (skipValueLoop n d).run s ≠ .err .outOfFuel s1) → (skipValueLoop k d).run s = (skipValueLoop n d).run s
  | 0, _, _, _, _, h => absurd rfl (h _)
  | n + 1, 0, _, _, hk, _ => absurd hk (by omega)
  | n + 1, k + 1, d, s, hk, h => by
    unfold skipValueLoop at h ⊢
    simp only [M.run_bind (atContainerEnd d)] at h ⊢
    cases h1 : (atContainerEnd d).run s with
    | err => rfl
    | ok e s1 =>
      simp only [h1] at h ⊢
      generalize hm : (if e = true then (do endContainer; pure (d - 1)) else do
        skipNameIfExpected
        let d' ← Reader.skipValueStart
        pure (d + d') : R AbsSrc Nat) = m' at h ⊢
      simp only [M.run_bind m'] at h ⊢
      cases h2 : m'.run s1 with
      | err => rfl
      | ok d2 s2 =>
        simp only [h2] at h ⊢
        split
        · rfl
        · rename_i hd
          rw [if_neg hd] at h
          exact skipValueLoop_mono (by omega) h

namespace Pk
variable (h : Pk o s s')
include h

theorem skipLoop {n : Nat} (he : s.expectsMemberName = false) : Same ((skipValueLoop (n + 1) 0).run s) ((skipValueLoop (n + 1) 0).run s') := by
  have h1 : ∀ {t : St}, t.expectsMemberName = false → (skipValueLoop (n + 1) 0).run t = (Reader.skipValueStart >>= fun d => if d == 0 then pure () else skipValueLoop n d).run t := by
    intro t ht
    have hs : skipNameIfExpected.run t = .ok () t := by
      unfold skipNameIfExpected
      rw [run_get, ht]
      rfl
    rw [skipValueLoop_succ]
    rw [M.bind_ok (a := false) (s' := t) rfl, M.run_bind, if_neg (by exact Bool.false_ne_true), M.bind_ok hs, M.run_bind, M.run_bind]
    cases Reader.skipValueStart.run t with
    | err => rfl
    | ok d s1 =>
      show (if (0 + d == 0) = true then (pure () : R AbsSrc Unit) else skipValueLoop n (0 + d)).run s1 = _
      rw [Nat.zero_add]
  rw [h1 he, h1 (h.emn.trans he)]
  exact h.skipValueStart.bind

theorem skipValue (hf : ∀ s1, Reader.skipValue.run s' ≠ .err .outOfFuel s1) : Same (Reader.skipValue.run s) (Reader.skipValue.run s') := by
  unfold Reader.skipValue at hf ⊢
  rw [run_get] at hf
  refine Same.get ?_
  rw [h.emn] at hf ⊢
  by_cases he : s.expectsMemberName = true
  · rw [if_pos he, if_pos he]
    exact Same.panic
  · rw [if_neg he] at hf
    rw [if_neg he, if_neg he]
    rw [← skipValueLoop_mono h.fuel hf]
    exact h.skipLoop (eq_false_of_ne_true he)

end Pk

/-- Calls which need the next token -/
def token : Op → Bool
  | .skipToTopLevel | .seekBack _ | .currentPosition _ | .consumeTrailingWhitespace => false
  | _ => true

theorem Pk.runOp (h : Pk o s s') (ht : token op = true) (hf : ∀ s1, (runOp op).run s' ≠ .err .outOfFuel s1) : Same ((Reader.runOp op).run s) ((Reader.runOp op).run s') := by
  cases op with
  | peek => exact h.peek.bind
  | beginArray => exact h.sev.bind.bind.bind
  | endArray => exact h.endArray.bind
  | beginObject => exact h.sev.bind.bind.bind
  | endObject => exact h.endObject.bind
  | nextName => exact h.beforeName.bind.bind
  | nextNameOwned => exact h.beforeName.bind.bind
  | nextString => exact h.sev.bind.bind
  | nextStr => exact h.sev.bind.bind
  | stringReader lens => exact h.sev.bind.bind
  | nextNumberAsStr => exact h.sev.bind.bind.bind
  | nextNumberAsString => exact h.sev.bind.bind.bind
  | nextBool => exact h.sev.bind.bind
  | nextNull => exact h.sev.bind.bind
  | hasNext => exact h.hasNext.bind
  | skipName => exact h.beforeName.bind.bind
  | skipValue => exact (h.skipValue fun s1 h1 => hf s1 (M.bind_err h1)).bind
  | seekTo path => exact h.peek.bind.bind
  | skipToTopLevel | seekBack | currentPosition | consumeTrailingWhitespace => cases ht

theorem runOps_same {ops : List Op} (h : Same ((runOp op).run s) ((runOp op).run s')) : runOps (op :: ops) s = runOps (op :: ops) s' := by
  unfold runOps
  rcases h with h | ⟨p, s1, s2, h1, h2⟩
  · rw [h]
  · rw [h1, h2]
    rfl

end Verif.Abs

import Verif.Proofs.Calls
import Verif.Spec.SimpleReader
/-!
# Errors are sticky in the Simple reader API
-/

namespace Verif.SimpleReaderSpec
open Reader SimpleReader

variable {V α β : Type}

theorem Untouched.mono {Q Q' : α → Prop} (hQ : ∀ a, Q a → Q' a) : {t : Calls (SCall V) (SRes V) α} → Untouched Q t → Untouched Q' t
  | .ret _, h => hQ _ h
  | .panic _, h => h
  | .call _ _, h => ⟨h.1, fun r => Untouched.mono hQ (h.2 r)⟩

theorem Sticky.mono {Q Q' : α → Prop} (hQ : ∀ a, Q a → Q' a) : {t : Calls (SCall V) (SRes V) α} → Sticky Q t → Sticky Q' t
  | .ret _, h => h
  | .panic _, h => h
  | .call c k, h => by
    intro r
    have hr := h r
    split
    · rename_i hf; rw [if_pos hf] at hr; exact hr.mono hQ
    · rename_i hf; rw [if_neg hf] at hr; exact hr.mono hQ

theorem not_failed {c : SCall V} (h : asksPosition c = true) (r : SRes V c) : failed c r = false := by
  unfold asksPosition at h
  split at h
  · rfl
  · exact absurd h (by simp)

theorem Untouched.sticky {Q Q' : α → Prop} : {t : Calls (SCall V) (SRes V) α} → Untouched Q t → Sticky Q' t
  | .ret _, _ => trivial
  | .panic _, h => by subst h; exact ⟨by decide, by decide⟩
  | .call c k, h => by
    intro r
    rw [not_failed h.1, if_neg (by simp)]
    exact (h.2 r).sticky

theorem Untouched.bind {Q : α → Prop} {Q' : β → Prop} {f : α → Calls (SCall V) (SRes V) β} (hf : ∀ a, Q a → Untouched Q' (f a)) :
    {t : Calls (SCall V) (SRes V) α} → Untouched Q t → Untouched Q' (t.bind f)
  | .ret a, h => hf a h
  | .panic _, h => h
  | .call _ _, h => ⟨h.1, fun r => Untouched.bind hf (h.2 r)⟩

theorem Sticky.bind {Q : α → Prop} {Q' : β → Prop} {f : α → Calls (SCall V) (SRes V) β} (hf : ∀ a, Q a → Untouched Q' (f a)) (hs : ∀ a, Sticky Q' (f a)) :
    {t : Calls (SCall V) (SRes V) α} → Sticky Q t → Sticky Q' (t.bind f)
  | .ret a, _ => hs a
  | .panic _, h => h
  | .call c k, h => by
    intro r
    have hr := h r
    show if failed c r then Untouched Q' ((k r).bind f) else Sticky Q' ((k r).bind f)
    split
    · rename_i hc; rw [if_pos hc] at hr; exact hr.bind hf
    · rename_i hc; rw [if_neg hc] at hr; exact hr.bind hf hs

end Verif.SimpleReaderSpec

namespace Verif.SimpleReader
open Reader SimpleReaderSpec

variable {V α β : Type}

/-- there is a stored error, and if `b` the result is an error -/
def Final (b : Bool) (x : Except SErr α × Option Stored) : Prop := x.2.isSome = true ∧ (b = true → isErr x.1 = true)

/-- The reader is not used if there is a stored error or when a method fails. `bs`: then the result is an error if there is already a stored error, `bi`: if a method fails. -/
structure Stick (bs bi : Bool) (m : X V α) : Prop where
  stops : ∀ e, Untouched (Final bs) (m.run (some e))
  inner : Sticky (Final bi) (m.run none)

variable {bs bi bs1 bi1 bs2 bi2 : Bool}

theorem Final.mono {x : Except SErr α × Option Stored} (h : Final bs x) (hb : bs1 = true → bs = true) : Final bs1 x := ⟨h.1, fun h1 => h.2 (hb h1)⟩

theorem Stick.mono {m : X V α} (h : Stick bs bi m) (hs : bs1 = true → bs = true) (hi : bi1 = true → bi = true) : Stick bs1 bi1 m :=
  ⟨fun e => (h.stops e).mono fun _ hx => hx.mono hs, h.inner.mono fun _ hx => hx.mono hi⟩

theorem Stick.any {m : X V α} (h : Stick bs bi m) : (s : Option Stored) → Sticky (Final bi) (m.run s)
  | none => h.inner
  | some e => (h.stops e).sticky

/-- the continuation -/
def cont (f : α → X V β) : Except SErr α × Option Stored → Calls (SCall V) (SRes V) (Except SErr β × Option Stored)
  | (.ok a, s) => (f a).run s
  | (.error e, s) => .ret (.error e, s)

theorem run_cont (m : X V α) (f : α → X V β) (s : Option Stored) : (m >>= f).run s = (m.run s).bind (cont f) := by
  rw [CT.run_bind]
  congr
  funext ⟨r, s⟩
  cases r <;> rfl

theorem Final.next {f : α → X V β} (hf : ∀ a e, Untouched (Final bs2) ((f a).run (some e))) {x : Except SErr α × Option Stored} (h : Final bs1 x) :
    Untouched (Final (bs1 || bs2)) (cont f x) := by
  obtain ⟨a | a, s⟩ := x
  · exact ⟨h.1, fun _ => rfl⟩
  · obtain ⟨hs, hb⟩ := h
    obtain ⟨e, rfl⟩ := Option.isSome_iff_exists.mp hs
    refine (hf a e).mono fun x hx => ⟨hx.1, fun h => ?_⟩
    rcases Bool.or_eq_true _ _ ▸ h with h | h
    · exact absurd (hb h) (by simp [isErr])
    · exact hx.2 h

theorem Stick.bind {m : X V α} {f : α → X V β} (h : Stick bs1 bi1 m) (hf : ∀ a, Stick bs2 bi2 (f a)) : Stick (bs1 || bs2) ((bi1 || bs2) && bi2) (m >>= f) := by
  refine ⟨fun e => ?_, ?_⟩
  · rw [run_cont]; exact (h.stops e).bind fun x hx => hx.next fun a => (hf a).stops
  · rw [run_cont]
    refine h.inner.bind (fun x hx => (hx.next fun a => (hf a).stops).mono fun x hx => hx.mono fun h => by rw [Bool.and_eq_true] at h; exact h.1) ?_
    rintro ⟨a | a, s⟩
    · trivial
    · exact ((hf a).any s).mono fun x hx => hx.mono fun h => by rw [Bool.and_eq_true] at h; exact h.2

/-- fails in both cases -/
abbrev Strong (m : X V α) : Prop := Stick true true m
/-- errors may be discarded -/
abbrev Weak (m : X V α) : Prop := Stick false false m

theorem Stick.weak {m : X V α} (h : Stick bs bi m) : Weak m := h.mono nofun nofun
/-- code which does not use the reader -/
abbrev Pure (m : X V α) : Prop := Stick false true m

theorem Strong.then {m : X V α} {f : α → X V β} (h : Strong m) (hf : ∀ a, Pure (f a)) : Strong (m >>= f) := Stick.bind h hf
theorem Stick.strong {m : X V α} {f : α → X V β} (h : Stick bs bi m) (hf : ∀ a, Strong (f a)) : Strong (m >>= f) := by
  have := Stick.bind h hf
  rw [Bool.or_true, Bool.or_true] at this
  exact this
theorem Strong.seq {m : X V α} {f : α → X V β} (h : Strong m) (hf : ∀ a, Weak (f a)) : Stick true false (m >>= f) := Stick.bind h hf

theorem Weak.bind {m : X V α} {f : α → X V β} (h : Weak m) (hf : ∀ a, Weak (f a)) : Weak (m >>= f) := Stick.bind h hf

theorem Stick.attempt {m : X V α} (h : Stick bs bi m) : Weak (CT.attempt m) :=
  ⟨fun e => Untouched.bind (Q := Final bs) (fun _ hx => by exact ⟨hx.1, nofun⟩) (h.stops e),
    Sticky.bind (Q := Final bi) (fun _ hx => by exact ⟨hx.1, nofun⟩) (fun _ => by trivial) h.inner⟩

theorem pure_pure (a : α) : Pure (pure a : X V α) := ⟨fun _ => ⟨rfl, nofun⟩, trivial⟩
theorem pure_ofExcept (r : Except SErr α) : Pure (CT.ofExcept r : X V α) := by
  cases r <;> exact ⟨fun _ => ⟨rfl, nofun⟩, trivial⟩
theorem strong_fail (e : SErr) : Strong (CT.fail e : X V α) := ⟨fun _ => ⟨rfl, fun _ => rfl⟩, trivial⟩

/-- the result of a call -/
def delivered : Except SErr α → Calls (SCall V) (SRes V) (Except SErr α × Option Stored)
  | .ok a => .ret (.ok a, none)
  | .error e => .ret (.error e, some (toStore e))

theorem useDelegate_none {c : SCall V} (f : SRes V c → Except SErr α) : (useDelegate c f).run none = .call c fun r => delivered (f r) := by
  show Calls.call c _ = _
  congr
  funext r
  dsimp only [Calls.bind]
  cases f r <;> rfl

theorem strong_useDelegate {c : SCall V} {f : SRes V c → Except SErr α} (hf : ∀ r, failed c r = true → isErr (f r) = true) : Strong (useDelegate c f) := by
  refine ⟨fun _ => ⟨rfl, fun _ => rfl⟩, ?_⟩
  rw [useDelegate_none]
  intro r
  have := hf r
  show if failed c r then Untouched _ (delivered (f r)) else Sticky _ (delivered (f r))
  revert this
  generalize f r = x
  intro this
  split
  · have := this ‹_›
    cases x with
    | ok a => exact absurd this (by simp [isErr])
    | error e => exact ⟨rfl, fun _ => rfl⟩
  · cases x <;> trivial

theorem isErr_of_failed {op : Op} {r : Except RErr Out} (h : failed (V := V) (.op op) r = true) : isErr r = true := by
  cases op <;> first | exact h | exact absurd h (by simp [failed])

theorem strong_unit (op : Op) : Strong (V := V) (unitCall op) := by
  refine strong_useDelegate fun r h => ?_
  have := isErr_of_failed h
  cases r with
  | ok a => exact this
  | error e => rfl
theorem strong_bool (op : Op) : Strong (V := V) (boolCall op) := by
  refine strong_useDelegate fun r h => ?_
  have := isErr_of_failed h
  cases r with
  | ok a => exact absurd this (by simp [isErr])
  | error e => rfl
theorem strong_text (op : Op) : Strong (V := V) (textCall op) := by
  refine strong_useDelegate fun r h => ?_
  have := isErr_of_failed h
  cases r with
  | ok a => exact absurd this (by simp [isErr])
  | error e => rfl
theorem strong_peek : Strong (V := V) peek := by
  refine strong_useDelegate fun r h => ?_
  have := isErr_of_failed h
  cases r with
  | ok a => exact absurd this (by simp [isErr])
  | error e => rfl
theorem strong_deserialize (d : De.De V) : Strong (deserializeNext d) := by
  refine strong_useDelegate fun r h => ?_
  cases r with
  | ok a => exact h
  | error e => rfl
theorem strong_stringStart : Strong (V := V) nextStringReader := by
  refine strong_useDelegate fun r h => ?_
  cases r with
  | ok a => exact h
  | error e => rfl

/-- the position which the reader reports -/
def posOf : Except RErr Out → Option Position
  | .ok (.position p) => some p
  | _ => none

theorem position_run (b : Bool) (s : Option Stored) : (currentPosition (V := V) b).run s = .call (.op (.currentPosition b)) fun r => .ret (.ok (posOf r), s) := by
  show Calls.call _ _ = _
  congr
  funext r
  cases r with
  | ok o => cases o <;> rfl
  | error e => rfl

theorem stick_position (b : Bool) : Pure (V := V) (currentPosition b) := by
  refine ⟨fun e => ?_, ?_⟩
  · rw [position_run]; exact ⟨rfl, fun r => ⟨rfl, nofun⟩⟩
  · rw [position_run]
    intro r
    split
    · exact absurd ‹_› (by simp [failed])
    · trivial

/-! ## Strings -/

theorem stringRead_none (len : Nat) : (stringRead (V := V) len).run none = .call (.stringRead len) fun r => match r with
    | .ok bs => .ret (.ok bs, none)
    | .error e => .ret (.error (.string e), some (.io e)) := by
  show Calls.call _ _ = _
  congr
  funext r
  cases r <;> rfl

theorem stringRead_some (len : Nat) (e : RErr) : (stringRead (V := V) len).run (some (.io e)) = .ret (.error (.stored (.io e)), some (.io e)) := rfl

/-- without or with an error of the string value reader -/
theorem strC_some (e : RErr) : (f : StrC V) → ∃ r, (strC f).run (some (.io e)) = .ret (r, some (.io e))
  | .ret r => by unfold strC; cases r <;> exact ⟨_, rfl⟩
  | .read len k => by
    unfold strC
    exact strC_some e (k (.error (.stored (.io e))))

/-- a failed read leads to the stored error, and if `b` to a failure -/
def StrInner {α : Type} (b : Bool) : Calls (SCall V) (SRes V) (Except SErr α × Option Stored) → Prop
  | .ret (_, s) => s = none
  | .panic p => p = .outOfFuel
  | .call (.stringRead _) k => (∀ bs, StrInner b (k (.ok bs))) ∧ ∀ e, ∃ r, k (.error e) = .ret (r, some (.io e)) ∧ (b = true → isErr r = true)
  | .call _ _ => False

theorem strC_none : (f : StrC V) → StrInner false ((strC f).run none)
  | .ret r => by unfold strC; cases r <;> rfl
  | .read len k => by
    unfold strC
    rw [CT.run_bind]
    show StrInner _ (Calls.bind (Calls.bind ((stringRead len).run none) _) _)
    rw [stringRead_none]
    refine ⟨fun bs => strC_none (k (.ok bs)), fun e => ?_⟩
    obtain ⟨r, hr⟩ := strC_some e (k (.error (.string e)))
    exact ⟨r, hr, nofun⟩

theorem skipString_none : (fuel : Nat) → StrInner true ((skipString (V := V) fuel).run none)
  | 0 => by
    unfold skipString
    rw [CT.run_bind, stringRead_none]
    refine ⟨fun bs => ?_, fun e => ⟨_, rfl, fun _ => rfl⟩⟩
    show StrInner _ (CT.run (if _ then _ else _) _)
    split <;> rfl
  | n + 1 => by
    unfold skipString
    rw [CT.run_bind, stringRead_none]
    refine ⟨fun bs => ?_, fun e => ⟨_, rfl, fun _ => rfl⟩⟩
    show StrInner _ (CT.run (if _ then _ else _) _)
    split
    · exact skipString_none n
    · rfl

theorem StrInner.bind {t : Calls (SCall V) (SRes V) (Except SErr α × Option Stored)} {f : α → X V β}
    (h : StrInner true t) (h1 : ∀ a, StrInner true ((f a).run none)) : StrInner true (t.bind (cont f)) := by
  induction t with
  | ret x =>
    obtain ⟨x, s⟩ := x
    cases h
    cases x with
    | ok a => exact h1 a
    | error e => rfl
  | panic p => exact h
  | call c k ih => cases c with
    | stringRead len =>
      refine ⟨fun bs => ih _ (h.1 bs), fun e => ?_⟩
      obtain ⟨r, hr, hb⟩ := h.2 e
      show ∃ r, (k (.error e)).bind (cont f) = _ ∧ _
      rw [hr]
      cases r with
      | ok a => exact absurd (hb rfl) (by simp [isErr])
      | error e' => exact ⟨_, rfl, fun _ => rfl⟩
    | _ => exact h.elim

theorem StrInner.sticky {b bi : Bool} : {t : Calls (SCall V) (SRes V) (Except SErr α × Option Stored)} → StrInner b t →
    {g : Except SErr α × Option Stored → Calls (SCall V) (SRes V) (Except SErr β × Option Stored)} → (∀ r, Sticky (Final bi) (g (r, none))) →
    (∀ r e, (b = true → isErr r = true) → Untouched (Final bi) (g (r, some e))) → Sticky (Final bi) (t.bind g)
  | .ret (r, _), h, _, h1, _ => by cases h; exact h1 r
  | .panic _, h, _, _, _ => by cases h; exact ⟨by decide, by decide⟩
  | .call (.stringRead _) k, h, g, h1, h2 => by
    intro r
    cases r with
    | ok bs => exact StrInner.sticky (h.1 bs) h1 h2
    | error e =>
      obtain ⟨r, hr, hb⟩ := h.2 e
      show Untouched _ ((k (.error e)).bind g)
      rw [hr]
      exact h2 r _ hb
  | .call (.op _) _, h, _, _, _ => h.elim
  | .call .stringStart _, h, _, _, _ => h.elim
  | .call (.deserialize _) _, h, _, _, _ => h.elim

/-- the end of `read_string_with_reader` -/
def stringEnd (fuel : Nat) (result : V) : X V V := do
  match ← CT.get with
  | some e => CT.fail (.stored e)
  | none => do
    let bs ← stringRead Utf8.maxBytesPerChar
    if bs.length > 0 then skipString fuel else pure ()
    pure result

theorem stringEnd_none (fuel : Nat) (v : V) : StrInner true ((stringEnd fuel v).run none) := by
  show StrInner true (CT.run (stringRead Utf8.maxBytesPerChar >>= fun bs => if bs.length > 0 then skipString fuel >>= fun _ => pure v else pure v) none)
  rw [CT.run_bind, stringRead_none]
  refine ⟨fun bs => ?_, fun e => ⟨_, rfl, fun _ => rfl⟩⟩
  show StrInner _ (CT.run (if _ then _ else _) none)
  split
  · rw [run_cont]
    exact (skipString_none fuel).bind fun _ => rfl
  · rfl

theorem strong_string (fuel : Nat) (f : StrC V) : Strong (readStringWithReader fuel f) := by
  refine ⟨fun _ => ⟨rfl, fun _ => rfl⟩, ?_⟩
  show Sticky _ (CT.run (nextStringReader >>= fun _ => strC f >>= fun v => stringEnd fuel v) none)
  rw [run_cont]
  unfold nextStringReader
  rw [useDelegate_none]
  intro r
  cases r with
  | error e => exact ⟨rfl, fun _ => rfl⟩
  | ok a =>
    show Sticky _ (CT.run (strC f >>= fun v => stringEnd fuel v) none)
    rw [run_cont]
    refine (strC_none f).sticky (fun r => ?_) fun r e _ => ?_
    · cases r with
      | error e => trivial
      | ok v =>
        show Sticky _ ((stringEnd fuel v).run none)
        rw [← Calls.bind_ret ((stringEnd fuel v).run none)]
        refine (stringEnd_none fuel v).sticky (fun _ => trivial) fun r e hb => ⟨rfl, fun _ => hb rfl⟩
    · cases r <;> exact ⟨rfl, fun _ => rfl⟩

/-! ## Arrays and objects -/

theorem weak_readValue {f : X V (V × Bool)} (h : Weak f) : Weak (readValue f) := by
  unfold readValue
  refine h.bind fun (v, b) => ?_
  dsimp only
  split
  · exact ((strong_unit _).then fun _ => pure_pure _).weak
  · exact (pure_pure _).weak

theorem strong_panic (p : CPanic) (h : p ≠ .index ∧ p ≠ .unexpectedErrorType) : Sticky (Final bi) ((CT.panic p : X V α).run none) := h

/-- a loop: only after the condition there may be the panic for too many iterations -/
theorem strong_loop {g : X V α} {d : X V α} (hg : Sticky (Final true) (g.run none)) (hd : Sticky (Final true) (d.run none)) :
    Strong (do if ← boolCall .hasNext then g else d : X V α) := by
  refine ⟨fun e => ⟨rfl, fun _ => rfl⟩, ?_⟩
  rw [run_cont]
  show Sticky _ (((useDelegate _ _).run none).bind _)
  rw [useDelegate_none]
  intro r
  cases r with
  | error e => exact ⟨rfl, fun _ => rfl⟩
  | ok o => cases o with
    | bool b => cases b with
      | true => exact hg
      | false => exact hd
    | _ => trivial

theorem strong_items {f : V → X V (V × Bool)} (hf : ∀ v, Weak (f v)) : (fuel : Nat) → (v : V) → Strong (itemsLoop f fuel v)
  | 0, v => by
    unfold itemsLoop
    exact strong_loop (strong_panic _ ⟨by decide, by decide⟩) trivial
  | n + 1, v => by
    unfold itemsLoop
    exact strong_loop ((weak_readValue (hf v)).strong fun v => strong_items hf n v).inner trivial

theorem strong_borrowed {f : V → X V (V × Bool × Bool)} (hf : ∀ v, Weak (f v)) : (fuel : Nat) → (v : V) → Strong (borrowedLoop f fuel v)
  | 0, v => by
    unfold borrowedLoop
    exact strong_loop (strong_panic _ ⟨by decide, by decide⟩) trivial
  | n + 1, v => by
    unfold borrowedLoop
    refine strong_loop ((hf v).strong fun (v, b1, b2) => ?_).inner trivial
    dsimp only
    have h := strong_borrowed hf n
    cases b1 <;> cases b2
    · exact (strong_unit _).strong fun _ => (strong_unit _).strong fun _ => h v
    · exact (strong_unit _).strong fun _ => h v
    · exact (strong_unit _).strong fun _ => h v
    · exact h v

theorem strong_owned {f : V → Text → X V (V × Bool)} (hf : ∀ v t, Weak (f v t)) : (fuel : Nat) → (v : V) → Strong (ownedLoop f fuel v)
  | 0, v => by
    unfold ownedLoop
    exact strong_loop (strong_panic _ ⟨by decide, by decide⟩) trivial
  | n + 1, v => by
    unfold ownedLoop
    refine strong_loop ((strong_text _).strong fun t => (hf v t).strong fun (v, b) => ?_).inner trivial
    dsimp only
    have h := strong_owned hf n
    cases b
    · exact (strong_unit _).strong fun _ => h v
    · exact h v

theorem strong_find (name : Text) : (fuel : Nat) → Strong (V := V) (findMember name fuel)
  | 0 => by
    unfold findMember
    exact strong_loop (strong_panic _ ⟨by decide, by decide⟩) trivial
  | n + 1 => by
    unfold findMember
    refine strong_loop (Stick.inner (bs := true) ?_) trivial
    refine Stick.bind (bs1 := true) (bi1 := true) (bs2 := false) (bi2 := true) (strong_text _) fun t => ?_
    split
    · exact pure_pure _
    · exact ((strong_unit _).strong fun _ => strong_find name n).mono nofun id

theorem strong_skipMembers : (fuel : Nat) → Strong (V := V) (skipMembers fuel)
  | 0 => by
    unfold skipMembers
    exact strong_loop (strong_panic _ ⟨by decide, by decide⟩) trivial
  | n + 1 => by
    unfold skipMembers
    exact strong_loop ((strong_unit _).strong fun _ => (strong_unit _).strong fun _ => strong_skipMembers n).inner trivial

theorem strong_members {f : V → X V (V × Bool)} (hf : ∀ v, Weak (f v)) : (fuel : Nat) → (v : V) → Strong (membersLoop f fuel v)
  | 0, v => by
    unfold membersLoop
    exact strong_loop (strong_panic _ ⟨by decide, by decide⟩) trivial
  | n + 1, v => by
    unfold membersLoop
    exact strong_loop ((strong_unit _).strong fun _ => (weak_readValue (hf v)).strong fun v => strong_members hf n v).inner trivial

/-! ## Multi path -/

/-- the call which has to fail -/
theorem strong_expectErr {op : X V α} (h : Strong op) : Strong (do
    match ← CT.attempt op with
    | .ok _ => CT.panic .expectErr
    | .error e => CT.fail e : X V Unit) := by
  have hc : ∀ x : Except SErr α × Option Stored, Final true x → Untouched (Final true) (cont (fun r : Except SErr α => (match r with
      | .ok _ => CT.panic .expectErr
      | .error e => CT.fail e : X V Unit)) (.ok x.1, x.2)) := by
    rintro ⟨a | a, s⟩ hx
    · exact ⟨hx.1, fun _ => rfl⟩
    · exact absurd (hx.2 rfl) (by simp [isErr])
  refine ⟨fun e => ?_, ?_⟩
  · rw [run_cont]
    show Untouched _ (Calls.bind (Calls.bind (op.run (some e)) _) _)
    rw [Calls.bind_assoc]
    exact (h.stops e).bind hc
  · rw [run_cont]
    show Sticky _ (Calls.bind (Calls.bind (op.run none) _) _)
    rw [Calls.bind_assoc]
    refine h.inner.bind hc ?_
    rintro ⟨a | a, s⟩
    · trivial
    · exact ⟨by decide, by decide⟩

theorem pure_notEmpty {op : X V α} (b : Bool) (h : Strong op) : Pure (checkNotEmpty b op) := by
  unfold checkNotEmpty
  cases b
  · refine Stick.mono (bs := true) (bi := true) ?_ nofun id
    refine Stick.bind (bs1 := true) (bi1 := true) (bs2 := false) (bi2 := true) (strong_bool _) fun b => ?_
    cases b
    · exact (strong_expectErr h).mono nofun id
    · exact pure_pure _
  · exact pure_pure _

/-- `multiPiece` without the index -/
def movesDown (fuel : Nat) (down : Bool) : PartialPath → X V Bool
  | .jsonPath path =>
    if down then do
      unitCall (.seekTo path)
      pure true
    else do
      unitCall (.seekBack path)
      pure false
  | .allArrayItems allowEmpty => do
    if down then do
      unitCall .beginArray
      checkNotEmpty allowEmpty peek
    else pure ()
    if ← boolCall .hasNext then pure true
    else do
      unitCall .endArray
      pure false
  | .optionalObjectMember name =>
    if down then do
      unitCall .beginObject
      if ← findMember name fuel then pure true
      else do
        unitCall .endObject
        pure false
    else do
      skipMembers fuel
      unitCall .endObject
      pure false
  | .allObjectMembers allowEmpty => do
    if down then do
      unitCall .beginObject
      checkNotEmpty allowEmpty (unitCall .skipName)
    else pure ()
    if ← boolCall .hasNext then do
      unitCall .skipName
      pure true
    else do
      unitCall .endObject
      pure false

def nextIndex (index : Nat) (b : Bool) : Nat × Bool := (if b then index + 1 else index, b)

theorem bind_congr' {m : X V α} {f g : α → X V β} (h : ∀ a, f a = g a) : m >>= f = m >>= g := by rw [funext h]

theorem ite_bind (b : Bool) (m m' : X V α) (f : α → X V β) : (if b = true then m else m') >>= f = if b = true then m >>= f else m' >>= f := by cases b <;> rfl

theorem up_eq (index : Nat) (op : Op) : (unitCall (V := V) op >>= fun _ => pure (index, false)) = (unitCall op >>= fun _ => pure false) >>= fun b => pure (nextIndex index b) := by
  rw [CT.bind_assoc]; rfl
theorem down_eq (index : Nat) (op : Op) : (unitCall (V := V) op >>= fun _ => pure (index + 1, true)) = (unitCall op >>= fun _ => pure true) >>= fun b => pure (nextIndex index b) := by
  rw [CT.bind_assoc]; rfl

theorem multiPiece_eq (fuel index : Nat) (down : Bool) (p : PartialPath) : multiPiece (V := V) fuel index down p = movesDown fuel down p >>= fun b => pure (nextIndex index b) := by
  cases p with
  | jsonPath path =>
    cases down
    · exact up_eq index _
    · exact down_eq index _
  | allArrayItems b =>
    cases down
    · refine Eq.trans (bind_congr' fun b => ?_) (CT.bind_assoc _ _ _).symm
      cases b
      · exact up_eq index _
      · rfl
    · refine Eq.trans (bind_congr' fun _ => Eq.trans (bind_congr' fun _ => Eq.trans (bind_congr' fun b => ?_) (CT.bind_assoc _ _ _).symm) (CT.bind_assoc _ _ _).symm) (CT.bind_assoc _ _ _).symm
      cases b
      · exact up_eq index _
      · rfl
  | optionalObjectMember name =>
    cases down
    · exact Eq.trans (bind_congr' fun _ => up_eq index _) (CT.bind_assoc _ _ _).symm
    · refine Eq.trans (bind_congr' fun _ => Eq.trans (bind_congr' fun b => ?_) (CT.bind_assoc _ _ _).symm) (CT.bind_assoc _ _ _).symm
      cases b
      · exact up_eq index _
      · rfl
  | allObjectMembers b =>
    cases down
    · refine Eq.trans (bind_congr' fun b => ?_) (CT.bind_assoc _ _ _).symm
      cases b
      · exact up_eq index _
      · exact down_eq index _
    · refine Eq.trans (bind_congr' fun _ => Eq.trans (bind_congr' fun _ => Eq.trans (bind_congr' fun b => ?_) (CT.bind_assoc _ _ _).symm) (CT.bind_assoc _ _ _).symm) (CT.bind_assoc _ _ _).symm
      cases b
      · exact up_eq index _
      · exact down_eq index _

theorem strong_moves (fuel : Nat) (down : Bool) (p : PartialPath) : Strong (V := V) (movesDown fuel down p) := by
  have he : ∀ op, Strong (V := V) (do unitCall op; pure false) := fun op => (strong_unit _).then fun _ => pure_pure _
  cases p with
  | jsonPath path =>
    cases down
    · exact (strong_unit _).then fun _ => pure_pure _
    · exact (strong_unit _).then fun _ => pure_pure _
  | allArrayItems b =>
    have h : Strong (V := V) (do if ← boolCall .hasNext then pure true else do unitCall .endArray; pure false) :=
      strong_loop trivial (he _).inner
    cases down
    · exact h
    · exact (strong_unit _).strong fun _ => (pure_notEmpty b strong_peek).strong fun _ => h
  | optionalObjectMember name =>
    cases down
    · exact (strong_skipMembers fuel).strong fun _ => he _
    · refine (strong_unit _).strong fun _ => Strong.then (strong_find name fuel) fun b => ?_
      cases b
      · exact (he _).mono nofun id
      · exact pure_pure _
  | allObjectMembers b =>
    have h : Strong (V := V) (do if ← boolCall .hasNext then do unitCall .skipName; pure true else do unitCall .endObject; pure false) :=
      strong_loop ((strong_unit _).then fun _ => pure_pure _).inner (he _).inner
    cases down
    · exact h
    · exact (strong_unit _).strong fun _ => (pure_notEmpty b (strong_unit _)).strong fun _ => h

theorem weak_match {fuel : Nat} {path : List PartialPath} {f : V → X V (V × Bool)} (hf : ∀ v, Weak (f v)) (index : Nat) (v : V) (h : index - 1 < path.length) :
    Weak (multiMatch fuel path f index v) := by
  unfold multiMatch
  refine (weak_readValue (hf v)).bind fun v => ?_
  rw [List.getElem?_eq_getElem h]
  cases path[index - 1] with
  | jsonPath _ => exact (pure_pure _).weak
  | optionalObjectMember _ => exact (pure_pure _).weak
  | allArrayItems _ => exact (strong_items hf _ _).weak
  | allObjectMembers _ => exact (strong_members hf _ _).weak

/-- one iteration of the main loop -/
theorem multiLoop_zero (fuel : Nat) (path : List PartialPath) (f : V → X V (V × Bool)) (index : Nat) (down hasMatch : Bool) (v : V) (h : index < path.length) :
    multiLoop fuel path f 0 index down hasMatch v = movesDown fuel down path[index] >>= fun _ => CT.panic .outOfFuel := by
  rw [multiLoop.eq_def, List.getElem?_eq_getElem h]
  dsimp only
  rw [multiPiece_eq, CT.bind_assoc]
  rfl

theorem multiLoop_succ (fuel : Nat) (path : List PartialPath) (f : V → X V (V × Bool)) (n index : Nat) (down hasMatch : Bool) (v : V) (h : index < path.length) :
    multiLoop fuel path f (n + 1) index down hasMatch v = movesDown fuel down path[index] >>= fun b =>
      if b = true then
        if path.length ≤ index + 1 then multiMatch fuel path f (index + 1) v >>= fun v => multiLoop fuel path f n index false true v
        else multiLoop fuel path f n (index + 1) true hasMatch v
      else if index = 0 then pure (v, hasMatch)
      else multiLoop fuel path f n (index - 1) false hasMatch v := by
  rw [multiLoop.eq_def, List.getElem?_eq_getElem h]
  dsimp only
  rw [multiPiece_eq, CT.bind_assoc]
  refine bind_congr' fun b => ?_
  rw [CT.pure_bind]
  cases b with
  | true =>
    simp only [nextIndex, if_true, Bool.true_and, decide_eq_true_eq, ge_iff_le]
    split
    · refine bind_congr' fun v => ?_
      rw [CT.pure_bind]
      simp
    · rw [CT.pure_bind]
      simp
  | false =>
    simp [nextIndex, CT.pure_bind]

theorem strong_multiLoop {fuel : Nat} {path : List PartialPath} {f : V → X V (V × Bool)} (hf : ∀ v, Weak (f v)) : (n index : Nat) → (down hasMatch : Bool) → (v : V) → index < path.length →
    Strong (multiLoop fuel path f n index down hasMatch v)
  | 0, index, down, hasMatch, v, h => by
    rw [multiLoop_zero _ _ _ _ _ _ _ h]
    have hm := strong_moves (V := V) fuel down path[index]
    have hc : ∀ x : Except SErr Bool × Option Stored, Final true x → Untouched (Final true) (cont (fun _ => (CT.panic .outOfFuel : X V (V × Bool))) x) := by
      rintro ⟨a | a, s⟩ hx
      · exact ⟨hx.1, fun _ => rfl⟩
      · exact absurd (hx.2 rfl) (by simp [isErr])
    refine ⟨fun e => ?_, ?_⟩
    · rw [run_cont]; exact (hm.stops e).bind hc
    · rw [run_cont]
      refine hm.inner.bind hc ?_
      rintro ⟨a | a, s⟩
      · trivial
      · exact ⟨by decide, by decide⟩
  | n + 1, index, down, hasMatch, v, h => by
    rw [multiLoop_succ _ _ _ _ _ _ _ _ h]
    have hw := weak_match hf (fuel := fuel) (index + 1) v (by simpa using h)
    refine Strong.then (strong_moves (V := V) fuel down path[index]) fun b => ?_
    cases b with
    | true =>
      rw [if_pos rfl]
      split
      · exact (hw.strong fun v => strong_multiLoop hf n index false true v h).mono nofun id
      · exact (strong_multiLoop hf n (index + 1) true hasMatch v (by omega)).mono nofun id
    | false =>
      rw [if_neg (by simp)]
      split
      · exact pure_pure _
      · exact (strong_multiLoop hf n (index - 1) false hasMatch v (by omega)).mono nofun id

theorem convertLoop_length (converted : List PartialPath) (cur : Option (List PathPiece)) (path : List MultiPiece) (h : 0 < converted.length ∨ cur.isSome = true ∨ path ≠ []) :
    0 < (convertLoop converted cur path).length := by
  induction path generalizing converted cur with
  | nil =>
    unfold convertLoop
    cases cur with
    | none => simpa [pushSection] using h
    | some c => simp [pushSection]
  | cons p path ih => cases p <;> exact ih _ _ (by simp)

theorem convertPath_length {path : List MultiPiece} (h : path ≠ []) : 0 < (convertPath path).length := convertLoop_length _ _ _ (.inr (.inr h))

theorem pure_noMatch (loc : Option Position) : Strong (V := V) (storeNoMatch loc >>= fun _ => CT.fail (.noMatch loc) : X V α) :=
  ⟨fun _ => ⟨rfl, fun _ => rfl⟩, trivial⟩

theorem strong_multi (fuel : Nat) {path : List MultiPiece} (atLeastOne : Bool) {f : V → X V (V × Bool)} (hf : ∀ v, Weak (f v)) (v : V) (h : path ≠ []) :
    Strong (readSeekedMulti fuel path atLeastOne f v) := by
  unfold readSeekedMulti
  rw [if_neg (by simpa using h)]
  have h1 : ∀ loc, Strong (do
      let (v, hasMatch) ← multiLoop fuel (convertPath path) f fuel 0 true false v
      if atLeastOne && !hasMatch then do
        storeNoMatch loc
        CT.fail (.noMatch loc)
      else pure v) := by
    intro loc
    refine Strong.then (strong_multiLoop hf _ _ _ _ _ (convertPath_length h)) fun (v, hasMatch) => ?_
    dsimp only
    split
    · exact (pure_noMatch loc).mono nofun id
    · exact pure_pure _
  cases atLeastOne
  · exact h1 none
  · exact (stick_position true).strong fun loc => h1 loc

theorem weak_multi (fuel : Nat) (path : List MultiPiece) (atLeastOne : Bool) {f : V → X V (V × Bool)} (hf : ∀ v, Weak (f v)) (v : V) : Weak (readSeekedMulti fuel path atLeastOne f v) := by
  by_cases h : path = []
  · subst h
    exact weak_readValue (hf v)
  · exact (strong_multi fuel atLeastOne hf v h).weak

/-! ## The API -/

/-- a multi path which is empty: then the value itself is given to the closure -/
def emptyMulti : ValOp V → Bool
  | .seekedMulti [] _ _ _ => true
  | _ => false

theorem strong_checkSkipName (b : Bool) : Pure (V := V) (checkSkipName b) := by
  cases b
  · exact (strong_unit _).mono nofun id
  · exact pure_pure _

mutual
theorem stick_value (fuel : Nat) : (o : ValOp V) → Stick (!emptyMulti o) (!emptyMulti o) (value fuel o)
  | .null => by unfold value; exact (strong_unit _).then fun _ => pure_pure _
  | .bool => by unfold value; exact (strong_bool _).then fun _ => pure_pure _
  | .str f => by unfold value; exact (strong_text _).then fun t => (pure_ofExcept _).bind fun _ => pure_pure _
  | .string => by unfold value; exact (strong_text _).then fun _ => pure_pure _
  | .stringReader f => by unfold value; exact (strong_string _ _).then fun _ => pure_pure _
  | .number => by unfold value; exact (strong_text _).then fun _ => pure_pure _
  | .numberString => by unfold value; exact (strong_text _).then fun _ => pure_pure _
  | .deserialize d => by unfold value; exact (strong_deserialize _).then fun _ => pure_pure _
  | .skip => by unfold value; exact (strong_unit _).then fun _ => pure_pure _
  | .array f => by unfold value; exact (strong_unit _).strong fun _ => (weak_arr fuel f).strong fun _ => (strong_unit _).then fun _ => pure_pure _
  | .arrayItems init f => by
    unfold value
    exact (strong_unit _).strong fun _ => (strong_items (fun v => weak_val fuel (f v)) _ _).strong fun _ => (strong_unit _).then fun _ => pure_pure _
  | .objectBorrowed init f => by
    unfold value
    exact (strong_unit _).strong fun _ => (strong_borrowed (fun v => weak_mem fuel false (f v)) _ _).strong fun _ => (strong_unit _).then fun _ => pure_pure _
  | .objectOwned init f => by
    unfold value
    exact (strong_unit _).strong fun _ => (strong_owned (fun v t => weak_val fuel (f v t)) _ _).strong fun _ => (strong_unit _).then fun _ => pure_pure _
  | .seeked path f => by
    unfold value
    exact (strong_unit _).strong fun _ => (weak_readValue (weak_val fuel f)).strong fun _ => (strong_unit _).then fun _ => pure_pure _
  | .seekedMulti [] b init f => by
    unfold value
    exact (weak_multi fuel [] b (fun v => weak_val fuel (f v)) init).bind fun _ => (pure_pure _).weak
  | .seekedMulti (p :: path) b init f => by
    unfold value
    exact (strong_multi fuel b (fun v => weak_val fuel (f v)) init (List.cons_ne_nil p path)).then fun _ => pure_pure _
theorem weak_arr (fuel : Nat) : (f : ArrC V) → Weak (arrC fuel f)
  | .ret r => by unfold arrC; exact (pure_ofExcept r).weak
  | .hasNext k => by unfold arrC; exact (strong_bool _).attempt.bind fun r => weak_arr fuel (k r)
  | .peek k => by unfold arrC; exact strong_peek.attempt.bind fun r => weak_arr fuel (k r)
  | .op o k => by unfold arrC; exact (stick_value fuel o).attempt.bind fun r => weak_arr fuel (k r)
theorem weak_val (fuel : Nat) : (f : ValC V) → Weak (valC fuel f)
  | .ret r => by unfold valC; exact (pure_ofExcept r).weak.bind fun _ => (pure_pure _).weak
  | .peek k => by unfold valC; exact strong_peek.attempt.bind fun r => weak_val fuel (k r)
  | .op o k => by unfold valC; exact (stick_value fuel o).attempt.bind fun r => (pure_ofExcept _).weak.bind fun _ => (pure_pure _).weak
theorem weak_mem (fuel : Nat) (b : Bool) : (f : MemC V) → Weak (memC fuel b f)
  | .ret r => by unfold memC; exact (pure_ofExcept r).weak.bind fun _ => (pure_pure _).weak
  | .readName k => by
    unfold memC
    cases b
    · exact (strong_text _).attempt.bind fun r => weak_mem fuel true (k r)
    · exact ⟨fun _ => rfl, ⟨by decide, by decide⟩⟩
  | .peek k => by
    unfold memC
    exact ((strong_checkSkipName b).strong fun _ => strong_peek).attempt.bind fun r => weak_mem fuel true (k r)
  | .op o k => by
    unfold memC
    refine (strong_checkSkipName b).attempt.bind fun r => ?_
    cases r with
    | error e => exact (pure_ofExcept _).weak.bind fun _ => (pure_pure _).weak
    | ok _ => exact (stick_value fuel o).attempt.bind fun r => (pure_ofExcept _).weak.bind fun _ => (pure_pure _).weak
end

theorem strong_value (fuel : Nat) (o : ValOp V) (h : emptyMulti o = false) : Strong (value fuel o) := by
  have := stick_value fuel o
  rw [h] at this
  exact this

/-! ## The top level -/

/-- the result is an error -/
def Failed (x : Except SErr α × Option Stored) : Prop := isErr x.1 = true

/-- As `Stick`, but the error need not be stored -/
structure StickTop (m : X V α) : Prop where
  stops : ∀ e, Untouched Failed (m.run (some e))
  inner : Sticky Failed (m.run none)

theorem StickTop.any {m : X V α} (h : StickTop m) : (s : Option Stored) → Sticky Failed (m.run s)
  | none => h.inner
  | some e => (h.stops e).sticky

theorem Stick.top {m : X V α} {f : α → X V β} (h : Stick bs bi m) (hf : ∀ a, StickTop (f a)) : StickTop (m >>= f) := by
  have hn : ∀ b (x : Except SErr α × Option Stored), Final b x → Untouched Failed (cont f x) := by
    rintro b ⟨a | a, s⟩ hx
    · rfl
    · obtain ⟨hs, hb⟩ := hx
      obtain ⟨e, rfl⟩ := Option.isSome_iff_exists.mp hs
      exact (hf a).stops e
  refine ⟨fun e => ?_, ?_⟩
  · rw [run_cont]; exact (h.stops e).bind (hn _)
  · rw [run_cont]
    refine h.inner.bind (hn _) ?_
    rintro ⟨a | a, s⟩
    · trivial
    · exact (hf a).any s

theorem StickTop.then {m : X V α} (h : StickTop m) (b : β) : StickTop (m >>= fun _ => pure b) := by
  have hn : ∀ x : Except SErr α × Option Stored, Failed x → Untouched Failed (cont (fun _ => (pure b : X V β)) x) := by
    rintro ⟨a | a, s⟩ hx
    · rfl
    · exact absurd hx (by simp [Failed, isErr])
  refine ⟨fun e => ?_, ?_⟩
  · rw [run_cont]; exact (h.stops e).bind hn
  · rw [run_cont]
    refine h.inner.bind hn ?_
    rintro ⟨a | a, s⟩ <;> trivial

theorem top_trailing : StickTop (V := V) consumeTrailingWhitespace := by
  refine ⟨fun _ => rfl, ?_⟩
  intro r
  cases r with
  | ok a => trivial
  | error e => rfl

theorem top_finish (b : Bool) : StickTop (V := V) (finish b) := by
  cases b
  · exact top_trailing
  · exact (strong_unit _).top fun _ => top_trailing

/-- the error of the call at the end is not stored -/
theorem top_read (fuel : Nat) (b : Bool) (o : ValOp V) : StickTop (readTop fuel b o) :=
  (stick_value fuel o).top fun g => (top_finish b).then g

theorem top_some (fuel : Nat) (e : Stored) (b : Bool) (c : TopC V) : Untouched (fun _ => True) ((topC fuel b c).run (some e)) := by
  induction c generalizing b with
  | ret r => cases r <;> trivial
  | seekTo path k ih => exact ih (.error (.stored e)) true
  | peek k ih => exact ih (.error (.stored e)) b
  | op o k =>
    unfold topC
    rw [run_cont]
    show Untouched _ (Calls.bind (Calls.bind ((readTop fuel b o).run (some e)) _) _)
    rw [Calls.bind_assoc]
    refine ((top_read fuel b o).stops e).bind fun (r, s) _ => ?_
    show Untouched _ ((CT.ofExcept (k r)).run s)
    cases k r <;> trivial

theorem top_none (fuel : Nat) (b : Bool) (c : TopC V) : Sticky (fun _ => True) ((topC fuel b c).run none) := by
  induction c generalizing b with
  | ret r => cases r <;> trivial
  | seekTo path k ih =>
    unfold topC
    rw [run_cont]
    refine (strong_unit _).attempt.inner.bind ?_ ?_
    · rintro ⟨r | r, s⟩ hx
      · trivial
      · obtain ⟨e, rfl⟩ := Option.isSome_iff_exists.mp hx.1
        exact top_some fuel e true (k r)
    · rintro ⟨r | r, s⟩
      · trivial
      · cases s with
        | none => exact ih r true
        | some e => exact (top_some fuel e true (k r)).sticky
  | peek k ih =>
    unfold topC
    rw [run_cont]
    refine strong_peek.attempt.inner.bind ?_ ?_
    · rintro ⟨r | r, s⟩ hx
      · trivial
      · obtain ⟨e, rfl⟩ := Option.isSome_iff_exists.mp hx.1
        exact top_some fuel e b (k r)
    · rintro ⟨r | r, s⟩
      · trivial
      · cases s with
        | none => exact ih r b
        | some e => exact (top_some fuel e b (k r)).sticky
  | op o k =>
    unfold topC
    rw [run_cont]
    show Sticky _ (Calls.bind (Calls.bind ((readTop fuel b o).run none) _) _)
    rw [Calls.bind_assoc]
    refine (top_read fuel b o).inner.bind (fun (r, s) _ => ?_) fun (r, s) => ?_
    · show Untouched _ ((CT.ofExcept (k r)).run s)
      cases k r <;> trivial
    · show Sticky _ ((CT.ofExcept (k r)).run s)
      cases k r <;> trivial

theorem sticky_run (fuel : Nat) (c : TopC V) : Sticky (fun _ => True) (run fuel c) :=
  Sticky.bind (fun _ _ => by trivial) (fun _ => by trivial) (top_none fuel false c)

/-- after an error -/
theorem value_some (fuel : Nat) (o : ValOp V) (h : emptyMulti o = false) (e : Stored) : Untouched (fun x => x = (.error (.stored e), some e)) ((value fuel o).run (some e)) := by
  cases o with
  | seekedMulti path b init f =>
    cases path with
    | nil => exact absurd h (by simp [emptyMulti])
    | cons p path =>
      have hl := convertPath_length (List.cons_ne_nil p path)
      have h1 : ∀ index down hasMatch v, index < (convertPath (p :: path)).length →
          (multiLoop fuel (convertPath (p :: path)) (fun v => valC fuel (f v)) fuel index down hasMatch v).run (some e) = .ret (.error (.stored e), some e) := by
        intro index down hasMatch v hi
        have h2 : ∀ q (g : Bool → X V (V × Bool)), (movesDown fuel down q >>= g).run (some e) = .ret (.error (.stored e), some e) := by
          intro q g
          cases q <;> cases down <;> try rfl
          · unfold movesDown skipMembers; rfl
        cases hfu : fuel with
        | zero => subst hfu; rw [multiLoop_zero _ _ _ _ _ _ _ hi]; exact h2 _ _
        | succ n => subst hfu; rw [multiLoop_succ _ _ _ _ _ _ _ _ hi]; exact h2 _ _
      have h3 : ∀ (g : V × Bool → X V V),
          (multiLoop fuel (convertPath (p :: path)) (fun v => valC fuel (f v)) fuel 0 true false init >>= g).run (some e) = .ret (.error (.stored e), some e) := by
        intro g
        rw [run_cont, h1 _ _ _ _ hl]
        rfl
      unfold value readSeekedMulti
      rw [run_cont, if_neg (by simp)]
      cases b
      · show Untouched _ (Calls.bind ((multiLoop fuel (convertPath (p :: path)) (fun v => valC fuel (f v)) fuel 0 true false init >>= _).run (some e)) _)
        rw [h3]
        rfl
      · show Untouched _ (Calls.bind ((currentPosition true >>= fun loc => multiLoop fuel (convertPath (p :: path)) (fun v => valC fuel (f v)) fuel 0 true false init >>= fun x =>
          if true && !x.2 then do
            storeNoMatch loc
            CT.fail (.noMatch loc)
          else pure x.1).run (some e)) _)
        rw [run_cont, position_run]
        refine ⟨rfl, fun r => ?_⟩
        show Untouched _ (Calls.bind ((multiLoop fuel (convertPath (p :: path)) (fun v => valC fuel (f v)) fuel 0 true false init >>= _).run (some e)) _)
        rw [h3]
        rfl
  | _ => rfl

end Verif.SimpleReader

import Verif.Proofs.Calls
import Verif.Spec.SimpleWriter
/-!
# Errors of the writer are sticky in the Simple writer API
-/

namespace Verif.SimpleWriter
open SimpleSpec

variable {α β : Type}

/-- after a failed call there are no further calls, and the error is stored -/
def Inner : Calls WCall WRes (Except SErr α × Option SErr) → Prop
  | .ret _ => True
  | .panic _ => False
  | .call _ k => (∀ n, Inner (k (.ok n))) ∧ ∀ e, ∃ r, k (.error e) = .ret (r, some e)

/-- no calls if there is a stored error -/
def Stops (m : X α) : Prop := ∀ e, ∃ r, m.run (some e) = .ret (r, some e)

structure Stick (m : X α) : Prop where
  stops : Stops m
  inner : Inner (m.run none)

theorem Stick.any {m : X α} (h : Stick m) : (s : Option SErr) → Inner (m.run s)
  | none => h.inner
  | some e => by obtain ⟨r, hr⟩ := h.stops e; rw [hr]; trivial

theorem Inner.bind {t : Calls WCall WRes (Except SErr α × Option SErr)} {f : Except SErr α × Option SErr → Calls WCall WRes (Except SErr β × Option SErr)} (h : Inner t)
    (h1 : ∀ x, Inner (f x)) (h2 : ∀ r e, ∃ r', f (r, some e) = .ret (r', some e)) : Inner (t.bind f) := by
  induction t with
  | ret x => exact h1 x
  | panic p => exact h
  | call c k ih =>
    refine ⟨fun n => ih _ (h.1 n), fun e => ?_⟩
    obtain ⟨r, hr⟩ := h.2 e
    obtain ⟨r', hr'⟩ := h2 r e
    exact ⟨r', by show (k (.error e)).bind f = _; rw [hr]; exact hr'⟩

theorem Stops.bind {m : X α} {f : α → X β} (h : Stops m) (hf : ∀ a, Stops (f a)) : Stops (m >>= f) := by
  intro e
  obtain ⟨r, hr⟩ := h e
  rw [CT.run_bind, hr]
  cases r with
  | ok a => exact hf a e
  | error e' => exact ⟨_, rfl⟩

theorem Stops.attempt {m : X α} (h : Stops m) : Stops (CT.attempt m) := by
  intro e
  obtain ⟨r, hr⟩ := h e
  refine ⟨.ok r, ?_⟩
  show (m.run (some e)).bind _ = _
  rw [hr]
  rfl

theorem Stick.bind {m : X α} {f : α → X β} (h : Stick m) (hf : ∀ a, Stick (f a)) : Stick (m >>= f) := by
  refine ⟨h.stops.bind fun a => (hf a).stops, ?_⟩
  rw [CT.run_bind]
  refine h.inner.bind ?_ ?_
  · rintro ⟨a | a, s⟩
    · trivial
    · exact (hf a).any s
  · rintro (a | a) e
    · exact ⟨_, rfl⟩
    · exact (hf a).stops e

theorem Stick.attempt {m : X α} (h : Stick m) : Stick (CT.attempt m) := by
  refine ⟨h.stops.attempt, h.inner.bind (fun _ => trivial) fun r e => ⟨_, rfl⟩⟩

theorem stick_pure (a : α) : Stick (pure a : X α) := ⟨fun _ => ⟨_, rfl⟩, trivial⟩
theorem stick_ofExcept (r : Except SErr α) : Stick (CT.ofExcept r : X α) := by
  cases r <;> exact ⟨fun _ => ⟨_, rfl⟩, trivial⟩

theorem useDelegate_some (c : WCall) (e : SErr) : (useDelegate c).run (some e) = .ret (.error (.previous e), some e) := rfl
theorem useDelegate_none (c : WCall) : (useDelegate c).run none = .call c fun
    | .ok n => .ret (.ok n, none)
    | .error e => .ret (.error e, some e) := by
  show Calls.call c _ = _
  congr
  funext r
  cases r <;> rfl

theorem call_some (c : WCall) (e : SErr) : (call c).run (some e) = .ret (.error (.previous e), some e) := rfl
theorem call_none (c : WCall) : (call c).run none = .call c fun
    | .ok _ => .ret (.ok (), none)
    | .error e => .ret (.error e, some e) := by
  show Calls.call c _ = _
  congr
  funext r
  cases r <;> rfl

theorem stick_useDelegate (c : WCall) : Stick (useDelegate c) := by
  refine ⟨fun _ => ⟨_, rfl⟩, ?_⟩
  rw [useDelegate_none]
  exact ⟨fun _ => trivial, fun e => ⟨_, rfl⟩⟩

theorem stick_call (c : WCall) : Stick (call c) := by
  refine ⟨fun _ => ⟨_, rfl⟩, ?_⟩
  rw [call_none]
  exact ⟨fun _ => trivial, fun e => ⟨_, rfl⟩⟩

theorem stick_str : (f : StrC) → Stick (str f)
  | .ret r => by unfold str; exact stick_ofExcept r
  | .op o k => by unfold str; exact (stick_useDelegate _).attempt.bind fun r => stick_str (k r)

/-- the end of `write_string_with_writer` -/
theorem stick_finish : Stick (do
    match ← CT.get with
    | some e => CT.fail (.previous e)
    | none => call .finishValue : X Unit) :=
  ⟨fun _ => ⟨_, rfl⟩, (stick_call .finishValue).inner⟩

theorem stick_string (f : StrC) : Stick (writeStringWithWriter f) :=
  (stick_call _).bind fun _ => (stick_str f).bind fun _ => stick_finish

mutual
theorem stick_value : (o : ValOp) → Stick (value o)
  | .null => by unfold value; exact stick_call _
  | .bool b => by unfold value; exact stick_call _
  | .string t => by unfold value; exact stick_call _
  | .stringWithWriter f => by unfold value; exact stick_string f
  | .number n => by unfold value; exact stick_call _
  | .fpNumber n => by unfold value; exact stick_call _
  | .numberString t => by unfold value; exact stick_call _
  | .serialize v => by unfold value; exact stick_call _
  | .array f => by unfold value; exact (stick_call _).bind fun _ => (stick_arr f).bind fun _ => stick_call _
  | .object f => by unfold value; exact (stick_call _).bind fun _ => (stick_obj f).bind fun _ => stick_call _
theorem stick_arr : (f : ArrC) → Stick (arr f)
  | .ret r => by unfold arr; exact stick_ofExcept r
  | .value o k => by unfold arr; exact (stick_value o).attempt.bind fun r => stick_arr (k r)
theorem stick_obj : (f : ObjC) → Stick (obj f)
  | .ret r => by unfold obj; exact stick_ofExcept r
  | .member n f k => by
    unfold obj
    refine ((stick_call _).bind fun _ => (stick_mem f).bind fun b => ?_).attempt.bind fun r => stick_obj (k r)
    split
    · exact stick_call _
    · exact stick_pure _
  | .memberValue n o k => by
    unfold obj
    exact ((stick_call _).bind fun _ => stick_value o).attempt.bind fun r => stick_obj (k r)
theorem stick_mem : (f : MemC) → Stick (mem f)
  | .ret r => by unfold mem; exact (stick_ofExcept r).bind fun _ => stick_pure _
  | .value o k => by unfold mem; exact (stick_value o).attempt.bind fun r => (stick_ofExcept _).bind fun _ => stick_pure _
end

/-- with a stored error all operations fail without calling the writer -/
theorem value_some (o : ValOp) (e : SErr) : (value o).run (some e) = .ret (.error (.previous e), some e) := by
  cases o <;> rfl

theorem finish_none : finishDocument.run none = .call .finishDocument fun
    | .ok _ => .ret (.ok (), none)
    | .error e => .ret (.error e, none) := by
  show Calls.call _ _ = _
  congr
  funext r
  cases r <;> rfl

theorem sticky_run (o : ValOp) : Sticky (run o) := by
  have key : ∀ t : Calls WCall WRes (Except SErr Unit × Option SErr), Inner t → ∀ F : Except SErr Unit × Option SErr → Calls WCall WRes (Except SErr Unit × Option SErr),
      (∀ s, F (.ok (), s) = finishDocument.run s) → (∀ e s, F (.error e, s) = .ret (.error e, s)) → Sticky ((t.bind F).bind fun (r, _) => .ret r) := by
    intro t ht F h1 h2
    induction t with
    | ret x =>
      obtain ⟨_ | _, _ | e⟩ := x
      · show Sticky ((F _).bind _); rw [h2]; trivial
      · show Sticky ((F _).bind _); rw [h2]; trivial
      · show Sticky ((F _).bind _)
        rw [h1, finish_none]
        exact ⟨fun _ => trivial, fun e => ⟨e, rfl⟩⟩
      · show Sticky ((F _).bind _); rw [h1]; trivial
    | panic p => exact ht
    | call c k ih =>
      refine ⟨fun n => ih _ (ht.1 n), fun e => ?_⟩
      obtain ⟨r, hr⟩ := ht.2 e
      show Failed (((k (.error e)).bind F).bind _)
      rw [hr]
      show Failed ((F _).bind _)
      cases r with
      | ok a => rw [h1]; exact ⟨_, rfl⟩
      | error e' => rw [h2]; exact ⟨_, rfl⟩
  unfold run write
  rw [CT.run_bind]
  exact key _ (stick_value o).inner _ (fun _ => rfl) fun _ _ => rfl

end Verif.SimpleWriter

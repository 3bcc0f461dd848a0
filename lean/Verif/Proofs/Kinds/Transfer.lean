import Verif.Proofs.Kinds.Run
import Verif.Proofs.After.Transfer
import Verif.Proofs.Transfer.AnyRun
/-! # Which errors of the reader `transfer_to` reports -/

namespace Verif.Kinds
open Reader ErrorKinds Transfer Writer
open Abs.After hiding W

variable {st : Settings} {d : Does} {α β : Type} {s : St}

/-- what is known about a result -/
def CpPost (st : Settings) (d : Does) (Q : α → St → Prop) (r : Except TErr α × (St × Core)) : Prop :=
  match r.1 with
  | .ok a => Q a r.2.1
  | .error (.reader e) => Allowed st d e ∧ r.2.1.settings = st
  | .error (.writer _) => r.2.1.settings = st

/-- only allowed errors, whatever the writer and the underlying `Write` do -/
def XCp (st : Settings) (d : Does) (m : X AbsSrc α) (s : St) (Q : α → St → Prop) : Prop := ∀ c, (m.run (s, c)).All (CpPost st d Q)

theorem all_and {P Q : β → Prop} : ∀ {t : Tree β}, t.All P → t.All Q → t.All fun b => P b ∧ Q b
  | .ret _, h, h' => ⟨h, h'⟩
  | .panic _, _, _ => trivial
  | .emit _ _, h, h' => fun r => all_and (h r) (h' r)
  | .flush _, h, h' => fun r => all_and (h r) (h' r)

theorem xboth {m : X AbsSrc α} {Q Q' : α → St → Prop} (h : XUp m s Q) (h' : XCp st d m s Q') : XCp st d m s (fun a s' => Q a s' ∧ Q' a s') := by
  refine fun c => (all_and (h c) (h' c)).mono ?_
  rintro ⟨r, s', c'⟩ ⟨h1, h2⟩
  match r, h1, h2 with
  | .ok a, h1, h2 => exact ⟨h1, h2⟩
  | .error (.reader e), h1, h2 => exact h2
  | .error (.writer e), h1, h2 => exact h2

theorem XCp.post {m : X AbsSrc α} {P Q : α → St → Prop} (h : XCp st d m s P) (hQ : ∀ a s', P a s' → Q a s') : XCp st d m s Q := by
  refine fun c => (h c).mono ?_
  rintro ⟨r, s', c'⟩ hp
  match r, hp with
  | .ok a, hp => exact hQ _ _ hp
  | .error (.reader e), hp => exact hp
  | .error (.writer e), hp => exact hp

theorem XCp.bind {m : X AbsSrc α} {f : α → X AbsSrc β} {P : α → St → Prop} {Q : β → St → Prop} (h : XCp st d m s P) (hf : ∀ a s', P a s' → XCp st d (f a) s' Q) : XCp st d (m >>= f) s Q := by
  intro c
  rw [T.run_bind]
  refine (h c).bind ?_
  rintro ⟨r, s', c'⟩ hp
  match r, hp with
  | .ok a, hp => exact hf a s' hp c'
  | .error (.reader e), hp => exact hp
  | .error (.writer e), hp => exact hp

theorem XCp.pure {a : α} {Q : α → St → Prop} (h : Q a s) : XCp st d (pure a) s Q := fun _ => h

theorem XCp.get {f : St × Core → X AbsSrc α} {Q : α → St → Prop} (h : ∀ c, XCp st d (f (s, c)) s Q) : XCp st d (T.get >>= f) s Q := fun c => h c c

theorem XCp.ite {p : Prop} [Decidable p] {a b : X AbsSrc α} {Q : α → St → Prop} (ha : p → XCp st d a s Q) (hb : ¬ p → XCp st d b s Q) : XCp st d (if p then a else b) s Q := by
  by_cases h : p
  · rw [if_pos h]; exact ha h
  · rw [if_neg h]; exact hb h

theorem XCp.reader {m : R AbsSrc α} {Q : α → St → Prop} (h : Cp st d m s Q) : XCp st d (onReader m) s Q := by
  intro c
  unfold onReader
  dsimp only
  cases hr : m.run s with
  | ok a s' => exact h.ok hr
  | err e s' => exact h.err hr

theorem XCp.rbind {m : R AbsSrc α} {f : α → X AbsSrc β} {P : α → St → Prop} {Q : β → St → Prop} (h : Cp st d m s P) (hf : ∀ a s', P a s' → XCp st d (f a) s' Q) :
    XCp st d (onReader m >>= f) s Q := XCp.bind (.reader h) hf

theorem XCp.writer {m : Writer.W α} (hw : s.settings = st) : XCp st d (onWriter m) s (fun _ s' => s' = s) := by
  intro c
  refine (Tree.all_true (m.run c)).bind ?_
  rintro ⟨r, c'⟩ _
  cases r with
  | ok a => exact rfl
  | error e => exact hw

theorem XCp.wbind {m : Writer.W α} {f : α → X AbsSrc β} {Q : β → St → Prop} (hw : s.settings = st) (hf : ∀ a, XCp st d (f a) s Q) : XCp st d (onWriter m >>= f) s Q :=
  XCp.bind (.writer hw) fun a _ e => e ▸ hf a

section
variable (hr : d.reads = true) (ht : d.tokens = true) (hf : d.structures .fewerElementsThanExpected = true) (hs : d.strings = true) (hn : d.numbers = true)
  (hx : d.returnsNumber = true) (hc : d.starts = true)

section
include hr hs

theorem fill_bl : ∀ n out, Bl st d K (transferFill n out)
  | 0, _ => Bl.fuel
  | n + 1, out => by
    have ih := fun out => fill_bl n out
    have := strBytes_bl (st := st) hr hs
    unfold transferFill; bl <;> exact ih _

theorem piece_bl : Bl st d K transferPiece := by
  have := fill_bl (st := st) hr hs transferBufSize []
  unfold transferPiece; bl

theorem transferStringLoop_cp : ∀ {n : Nat} {s : St}, s.settings = st → XCp st d (transferStringLoop n) s (fun _ s' => s'.settings = st)
  | 0, _, hst => XCp.reader ⟨trivial, hst⟩
  | n + 1, s, hst => by
    unfold transferStringLoop
    refine XCp.rbind (piece_bl hr hs s hst) ?_
    rintro ⟨e, t⟩ s1 h1
    have h1 : s1.settings = st := h1.1.trans hst
    exact XCp.wbind h1 fun _ => XCp.ite (fun _ => XCp.pure h1) fun _ => transferStringLoop_cp h1
end

section
include hr hs

theorem transferString_cp (hst : s.settings = st) (hk : Knows .string s) : XCp st d transferString s (fun _ s' => s'.settings = st) := by
  unfold transferString
  refine XCp.rbind (sev_known hst hk nofun) fun _ s1 h1 => XCp.wbind h1 fun _ => XCp.get fun c => ?_
  refine XCp.bind (transferStringLoop_cp hr hs h1) fun _ s2 h2 => XCp.wbind h2 fun _ => XCp.reader ?_
  exact (onValueEnd_bl s2 h2).post fun _ _ h => h.1.trans h2
end

include hr ht hf hs hn hx hc

omit ht hf hs hc in
theorem readNumberBytes_known {b : Bool} (hst : s.settings = st) (hk : Knows .number s) : Cp st d (readNumberBytes b) s (fun _ s' => s'.settings = st) := by
  unfold readNumberBytes
  refine after_sev hst hk nofun fun _ => Bl.toT ?_
  refine Bl.bind (consumeNumber_bl hr hn (Bl.lift hr _) (Bl.lift hr _) (vPeek_bl hr)) fun r => ?_
  refine Bl.get fun s hs => Bl.ite (fun h => ?_) fun _ => ?_
  · refine Bl.bind (Bl.lift hr _) fun _ => Bl.bind (Bl.lift hr _) fun _ => Bl.get fun _ _ => ?_
    refine fun s' hs' => ⟨⟨hx, ?_⟩, hs'⟩
    rw [hs] at h
    exact (Bool.and_eq_true_iff.1 h).1
  · exact Bl.bind (Bl.lift hr _) fun _ => finishNumber_bl hr hn

theorem transferStart_cp (hw : Ws st s) : XCp st d transferStart s (fun _ s' => s'.settings = st) := by
  unfold transferStart
  refine XCp.rbind (peek_known hr ht hf hw) ?_
  rintro t s1 ⟨h1, hk⟩
  have val : ∀ {β : Type} {m : R AbsSrc β} {f : β → Writer.W Unit} {k : Nat}, Cp st d m s1 (fun _ s' => s'.settings = st) →
      XCp st d (do let x ← onReader m; onWriter (f x); pure k : X AbsSrc Nat) s1 (fun _ s' => s'.settings = st) :=
    fun hm => XCp.rbind hm fun _ _ h => XCp.wbind h fun _ => XCp.pure h
  have he := (onValueEnd_bl (st := st) (d := d)).toT
  cases t with
  | array =>
    refine val (f := fun _ => Writer.beginArray) ?_
    unfold Reader.beginArray onContainerStart
    rw [bind_assoc]
    exact after_sev h1.st hk (fun _ => hc) fun _ => by bl
  | object =>
    refine val (f := fun _ => Writer.beginObject) ?_
    unfold Reader.beginObject onContainerStart
    rw [bind_assoc]
    exact after_sev h1.st hk (fun _ => hc) fun _ => by bl
  | string => exact XCp.bind (transferString_cp hr hs h1.st hk) fun _ _ h => XCp.pure h
  | number =>
    refine val ?_
    unfold nextNumberAsStr
    refine Wp.bind' (readNumberBytes_known hr hn hx h1.st hk) fun _ s2 h2 => ?_
    exact (Bl.lift hr _ s2 h2).post fun _ _ h => h.1.trans h2
  | boolean =>
    refine val ?_
    unfold nextBool
    exact after_sev h1.st hk nofun fun _ => by bl
  | null =>
    refine val (f := fun _ => nullValue) ?_
    exact after_sev h1.st hk nofun fun _ => by bl

omit hr ht hf hs hn hx hc in
theorem transferEnd_cp (hw : Ws st s) (he : AtEnd s) : XCp st d transferEnd s (fun _ s' => s'.settings = st) := by
  unfold transferEnd
  refine XCp.get fun c => XCp.ite (fun _ => ?_) fun _ => ?_
  · exact XCp.rbind (endArray_known hw he) fun _ s' h => (XCp.writer h).post fun _ _ e => e ▸ h
  · exact XCp.rbind (endObject_known hw he) fun _ s' h => (XCp.writer h).post fun _ _ e => e ▸ h

omit hn hx hc in
theorem transferName_cp (hw : Ws st s) : XCp st d transferName s (fun _ s' => s'.settings = st) := by
  unfold transferName
  refine XCp.get fun c => XCp.ite (fun _ => ?_) fun _ => XCp.pure hw.st
  refine XCp.rbind (nextName_bl hr ht hf hs s hw.st) fun _ s' h => ?_
  have h : s'.settings = st := h.1.trans hw.st
  exact (XCp.writer h).post fun _ _ e => e ▸ h

theorem transferLoop_cp : ∀ {n k : Nat} {s : St}, Ws st s → XCp st d (transferLoop n k) s (fun _ s' => s'.settings = st)
  | 0, _, _, hw => XCp.reader ⟨trivial, hw.st⟩
  | n + 1, k, s, hw => by
    unfold transferLoop
    refine XCp.rbind (P := fun b s' => Ws st s' ∧ (b = true → AtEnd s')) ?_ ?_
    · unfold atContainerEnd
      refine Wp.ite (fun _ => Wp.bind' (hasNext_known hr ht hw) ?_) fun _ => ⟨hw, nofun⟩
      rintro b s1 ⟨h1, h2⟩
      exact ⟨h1, fun h => h2 (by simpa using h)⟩
    rintro b s1 ⟨h1, h2⟩
    refine XCp.bind (P := fun _ s' => Ws st s') (XCp.ite (fun hb => ?_) fun _ => ?_) fun k' s2 h3 => XCp.ite (fun _ => XCp.pure h3.st) fun _ => transferLoop_cp h3
    · exact XCp.bind (xboth (transferEnd_up h1.w) (transferEnd_cp h1 (h2 hb))) fun _ s2 h => XCp.pure ⟨h.1.1, h.2⟩
    · refine XCp.bind (xboth (transferName_up h1.w) (transferName_cp hr ht hf hs h1)) fun _ s2 h => ?_
      exact XCp.bind (xboth (transferStart_up h.1.1) (transferStart_cp hr ht hf hs hn hx hc ⟨h.1.1, h.2⟩)) fun _ s3 h => XCp.pure ⟨h.1.1, h.2⟩

theorem transferTo_cp (hw : Ws st s) : XCp st d transferTo s (fun _ s' => s'.settings = st) := by
  unfold transferTo
  exact XCp.get fun c => XCp.ite (fun _ => XCp.reader ⟨trivial, hw.st⟩) fun _ => transferLoop_cp hr ht hf hs hn hx hc hw

end

theorem walk_of_all {P : β → Prop} : ∀ {t : Tree β} {x : Bytes}, t.All P → t.Walk True (fun b _ => P b) x
  | .ret _, _, h => h
  | .panic _, _, _ => trivial
  | .emit _ _, _, h => ⟨walk_of_all (h _), fun _ _ => walk_of_all (h _)⟩
  | .flush _, _, h => ⟨walk_of_all (h _), fun _ _ => walk_of_all (h _)⟩

theorem ws_steps {ops : List Op} {s s' : St} {rs : List (Except RErr Out)} (h : Abs.Steps ops s rs s') : Ws st s → Ws st s' := by
  induction h with
  | nil => exact id
  | ok ho hm _ ih => exact fun hw => ih ⟨(op_up hw.w ho).ok hm, (op_cp _ hw).ok hm⟩
  | err ho hf hm _ ih => exact fun hw => ih ⟨G.w ((op_up hw.w ho).err hm) hf, ((op_cp _ hw).err hm).2⟩

end Verif.Kinds

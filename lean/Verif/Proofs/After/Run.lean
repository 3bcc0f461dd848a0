import Verif.Proofs.After.Transfer
import Verif.Proofs.Run
/-!
# Using the reader after errors

After a syntax error or an IO error the reader with its buffer is related again to the reader on a list of bytes: the one which consists of
the unread part of the buffer, followed by what the underlying reader delivers from now on.
-/

namespace Verif.After
open Reader Sim Abs.After Transfer

variable {N : Nat} {dbg : Bool}

/-- the bytes which the reader is going to read -/
def absOf (c : BufSrcD N dbg) : AbsSrc :=
  ⟨(c.buf.take c.bufEndPos).drop c.bufPos ++ (if c.reachedEof then [] else BufSrc.schedBytes c.sched), if c.reachedEof then none else BufSrc.schedError c.sched, []⟩

theorem rel_absOf {stale b : Bool} {c : BufSrcD N dbg} (h : BufSrc.Fin stale b c) : BufSrc.BRel (stale || b) (.idle false) c (absOf c) := by
  refine .idle ⟨h.1.len, h.1.le1, h.1.le2, h.1.eof, rfl, rfl⟩ (fun hu => ?_) nofun
  rcases h.2 hu with h | h <;> rw [h] <;> simp

/-- Results of a run; the flag tells whether `TrailingDataAfterNumber` occurred before -/
inductive Safe (dbg : Bool) : Bool → List RCallResult → Prop
  | nil {st : Bool} : Safe dbg st []
  | ok {st : Bool} {r : RCallResult} {l : List RCallResult} : r.readerError = none → Safe dbg st l → Safe dbg st (r :: l)
  | err {st : Bool} {r : RCallResult} {e : RErr} {l : List RCallResult} : r.readerError = some e → Tame e → Safe dbg (st || e.trailing) l → Safe dbg st (r :: l)
  | exempt {st : Bool} {r : RCallResult} {e : RErr} : r.readerError = some e → BufSrc.SX dbg st e → Safe dbg st [r]

theorem SX.isPanic {st : Bool} {e : RErr} (h : BufSrc.SX dbg st e) : e.isPanic = true := by
  rcases h.2 with rfl | ⟨_, rfl⟩ <;> rfl

/-- what is known after a call -/
inductive Step (dbg stale : Bool) (hN : 0 < N) (settings : Settings) (c : RCall) (r : RCallResult) (t1 : RState (BufSrcD N dbg)) : Prop
  | ok (t2 : RState AbsSrc) : r.readerError = none → (c ≠ .op .consumeTrailingWhitespace → r.ends c = false → (BufSrc.simS dbg stale hN settings).RRel (.idle false) t1 t2 ∧ Abs.After.W t2) →
    Step dbg stale hN settings c r t1
  | err (e : RErr) (t2 : RState AbsSrc) : r.readerError = some e → Tame e → (BufSrc.simS dbg stale hN settings).ERel e t1 t2 → (c ≠ .op .consumeTrailingWhitespace → G e t2) →
    Step dbg stale hN settings c r t1
  | exempt (e : RErr) : r.readerError = some e → BufSrc.SX dbg stale e → Step dbg stale hN settings c r t1

theorem op_step (hN : 0 < N) (settings : Settings) (op : Op) {stale : Bool} {s1 : RState (BufSrcD N dbg)} {s2 : RState AbsSrc}
    (h : (BufSrc.simS dbg stale hN settings).RRel (.idle false) s1 s2) (hw : Abs.After.W s2) :
    Step dbg stale hN settings (.op op) (runCall (.op op) s1).1 (runCall (.op op) s1).2 := by
  have hr := runOpT op s1 s2 h
  unfold RelAt at hr
  -- what is known about the reader on the list of bytes
  have habs : Wp (runOp op) s2 (fun _ s' => op ≠ .consumeTrailingWhitespace → Abs.After.W s')
      (fun e s' => Tame e ∧ (op ≠ .consumeTrailingWhitespace → G e s')) := by
    by_cases ho : op = .consumeTrailingWhitespace
    · subst ho
      refine Wp.bind' (trailing_up.mono (fun _ _ h => h) fun e _ h => ⟨h, fun h => absurd rfl h⟩) ?_
      exact fun _ _ _ => Wp.pure fun h => absurd rfl h
    · exact (op_up hw ho).mono (fun _ _ h _ => h) fun e _ h => ⟨h.tame, fun _ => h⟩
  unfold runCall
  dsimp only
  cases h1 : (runOp op).run s1 with
  | ok a t1 =>
    cases h2 : (runOp op).run s2 with
    | ok b t2 =>
      rw [h1, h2] at hr
      exact .ok t2 rfl fun ho _ => ⟨hr.2, habs.ok h2 fun h => ho (h ▸ rfl)⟩
    | err e t2 => rw [h1, h2] at hr; exact hr.elim
  | err e1 t1 =>
    cases h2 : (runOp op).run s2 with
    | ok b t2 => rw [h1, h2] at hr; exact .exempt e1 rfl hr
    | err e2 t2 =>
      rw [h1, h2] at hr
      rcases hr with hr | ⟨rfl, hi⟩
      · exact .exempt e1 rfl hr
      · have ha := habs.err h2
        exact .err e1 t2 rfl ha.1 hi fun ho => ha.2 fun h => ho (h ▸ rfl)

theorem transfer_step (hN : 0 < N) (settings : Settings) (core : Writer.Core) (k : Writer.BufSink) {stale : Bool} {s1 : RState (BufSrcD N dbg)} {s2 : RState AbsSrc}
    (h : (BufSrc.simS dbg stale hN settings).RRel (.idle false) s1 s2) (hw : Abs.After.W s2) :
    Step dbg stale hN settings (.transfer core k) (runCall (.transfer core k) s1).1 (runCall (.transfer core k) s1).2 := by
  have hX : ¬ (BufSrc.simS dbg stale hN settings).X .outOfFuel := by
    rintro ⟨_, h | ⟨_, h⟩⟩ <;> cases h
  have hr := (transferTo_relX hX s1 s2 core h).run k
  have hu := transferTo_up hw core
  unfold runCall
  dsimp only
  rcases hr with ⟨a, k', h1, hr⟩ | ⟨p, k', h1, h2⟩
  · rw [h1]
    obtain ⟨r, t1, c1⟩ := a
    dsimp only
    rcases hr with ⟨e, he, hx⟩ | ⟨⟨r', t2, c2⟩, h2, hp1, hp2, hp3⟩
    · dsimp only at he
      subst he
      exact .exempt e rfl hx
    · have hu := Writer.all_run hu (k := k) (by rw [h2]; rfl)
      dsimp only at hp1 hp2 hp3
      subst hp1 hp2
      cases r with
      | ok u =>
        refine .ok t2 rfl fun _ _ => ⟨?_, hu⟩
        rcases hp3 with hp3 | ⟨e, he, _⟩
        · exact hp3
        · cases he
      | error e =>
        cases e with
        | writer e =>
          refine .ok t2 rfl fun _ _ => ⟨?_, hu⟩
          rcases hp3 with hp3 | ⟨e, he, _⟩
          · exact hp3
          · cases he
        | reader e =>
          have hu : G e t2 := hu
          refine .err e t2 rfl hu.tame ?_ fun _ => hu
          rcases hp3 with hp3 | ⟨e, he, hp3⟩
          · exact .of_rel hp3
          · cases he; exact hp3
  · rw [h1]
    exact .ok s2 rfl fun _ h => by cases h

theorem call_step (hN : 0 < N) (settings : Settings) (c : RCall) {stale : Bool} {s1 : RState (BufSrcD N dbg)} {s2 : RState AbsSrc}
    (h : (BufSrc.simS dbg stale hN settings).RRel (.idle false) s1 s2) (hw : Abs.After.W s2) :
    Step dbg stale hN settings c (runCall c s1).1 (runCall c s1).2 := by
  cases c with
  | op op => exact op_step hN settings op h hw
  | transfer core k => exact transfer_step hN settings core k h hw

theorem not_trailing {r : RCallResult} {c : RCall} (h : r.ends c = false) : c ≠ .op .consumeTrailingWhitespace := by
  rintro rfl
  cases r <;> cases h

theorem ends_panic {r : RCallResult} {c : RCall} {e : RErr} (h : r.readerError = some e) (hp : e.isPanic = true) : r.ends c = true := by
  unfold RCallResult.ends
  split
  · rfl
  · rfl
  · rw [h]; exact hp

theorem runAll_safe (hN : 0 < N) (settings : Settings) (calls : List RCall) : ∀ {stale : Bool} {s1 : RState (BufSrcD N dbg)} {s2 : RState AbsSrc},
    (BufSrc.simS dbg stale hN settings).RRel (.idle false) s1 s2 → Abs.After.W s2 → Safe dbg stale (runAll calls s1) := by
  induction calls with
  | nil => intros; exact .nil
  | cons c calls ih =>
    intro stale s1 s2 h hw
    have hs := call_step hN settings c h hw
    unfold runAll
    generalize runCall c s1 = x at hs
    obtain ⟨r, t1⟩ := x
    dsimp only at hs ⊢
    cases hs with
    | ok t2 hr hi =>
      refine .ok hr ?_
      split
      · exact .nil
      · rename_i he
        have he : r.ends c = false := by simpa using he
        obtain ⟨h1, h2⟩ := hi (not_trailing he) he
        exact ih h1 h2
    | exempt e hr hx =>
      rw [if_pos (ends_panic hr (SX.isPanic hx))]
      exact .exempt hr hx
    | err e t2 hr ht hi hg =>
      refine .err hr ht ?_
      split
      · exact .nil
      · rename_i he
        have he : r.ends c = false := by simpa using he
        have hg := hg (not_trailing he)
        have hp : e.isPanic = false := by
          cases hp : e.isPanic with
          | false => rfl
          | true => rw [ends_panic hr hp] at he; cases he
        have data : e.data → WF t2 → t2.peeked = none → Safe dbg (stale || e.trailing) (runAll calls t1) := by
          intro hd hwf hpk
          obtain ⟨hfin, pk, e', m, st, sa, l, col, bp, pa⟩ := hi.2 hd
          refine ih (RRel.mk (S := BufSrc.simS dbg (stale || e.trailing) hN settings) (rel_absOf hfin) ..) ?_
          exact WF.w ⟨hwf.path, hwf.name⟩ hpk
        have nonf : e.nonfatal → e.trailing = false → Abs.After.W t2 → Safe dbg (stale || e.trailing) (runAll calls t1) := by
          intro hn ht hw
          rw [ht, Bool.or_false]
          exact ih (hi.1 hn) hw
        cases e with
        | panic p => cases hp
        | outOfFuel => cases hp
        | «syntax» k l => exact data trivial hg.1 hg.2
        | io k l => exact data trivial hg.1 hg.2
        | _ => exact nonf trivial rfl hg

theorem runReaderAll_safe (hN : 0 < N) (dbg : Bool) (settings : Settings) (sched : List ReadEvent) (calls : List RCall) :
    Safe dbg false (runReaderAll dbg N settings sched calls) := by
  refine runAll_safe hN settings calls (RRel.mk (S := BufSrc.simS dbg false hN settings) (BufSrc.BRel.new sched) ..) (WF.w ⟨?_, nofun⟩ rfl)
  intro p hp
  dsimp only at hp
  split at hp
  · cases hp; trivial
  · cases hp

theorem Safe.internal {st : Bool} {l : List RCallResult} (h : Safe dbg st l) {r : RCallResult} {p : InternalPanic} (hr : r ∈ l) (hp : r.readerError = some (.panic (.internal p))) :
    (st = true ∨ ∃ r' ∈ l, ∃ loc, r'.readerError = some (.syntax .trailingDataAfterNumber loc)) ∧ (p = .bufHoldsValue ∨ (dbg = true ∧ p = .debugAssert)) := by
  induction h with
  | nil => cases hr
  | ok h0 _ ih =>
    rcases List.mem_cons.1 hr with rfl | h
    · rw [h0] at hp; cases hp
    · obtain ⟨h1, h2⟩ := ih h
      exact ⟨h1.imp_right fun ⟨r', h, hl⟩ => ⟨r', List.mem_cons_of_mem _ h, hl⟩, h2⟩
  | @err st r0 e l h0 ht _ ih =>
    rcases List.mem_cons.1 hr with rfl | h
    · rw [h0] at hp; cases hp; exact ht.elim
    · obtain ⟨h1, h2⟩ := ih h
      refine ⟨?_, h2⟩
      rcases h1 with h1 | ⟨r', h1, hl⟩
      · cases st with
        | true => exact .inl rfl
        | false =>
          refine .inr ?_
          have h1 : e.trailing = true := h1
          unfold RErr.trailing at h1
          split at h1
          · exact ⟨_, List.mem_cons_self .., _, h0⟩
          · cases h1
      · exact .inr ⟨r', List.mem_cons_of_mem _ h1, hl⟩
  | exempt h0 hx =>
    rcases List.mem_cons.1 hr with rfl | h
    · rw [h0] at hp
      cases hp
      refine ⟨.inl hx.1, ?_⟩
      rcases hx.2 with h | ⟨h1, h2⟩
      · cases h; exact .inl rfl
      · cases h2; exact .inr ⟨h1, rfl⟩
    · cases h

theorem Safe.fuel {st : Bool} {l : List RCallResult} (h : Safe dbg st l) : ∀ r ∈ l, r.readerError ≠ some .outOfFuel := by
  intro r hr hp
  induction h with
  | nil => cases hr
  | ok h0 _ ih =>
    rcases List.mem_cons.1 hr with rfl | h
    · rw [h0] at hp; cases hp
    · exact ih h
  | err h0 ht _ ih =>
    rcases List.mem_cons.1 hr with rfl | h
    · rw [h0] at hp; cases hp; exact ht.elim
    · exact ih h
  | exempt h0 hx =>
    rcases List.mem_cons.1 hr with rfl | h
    · rw [h0] at hp
      cases hp
      rcases hx.2 with h | ⟨h1, h2⟩
      · cases h
      · cases h2
    · cases h

end Verif.After

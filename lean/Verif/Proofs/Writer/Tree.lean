import Verif.Model.Sink
/-!
# The buffer of the writer, and computations which write to it
-/

namespace Verif.Writer

/-! ## `write_all` -/

theorem writeAll_cons (data rec : Bytes) (e : WriteEvent) (es : List WriteEvent) : writeAll data rec (e :: es) =
    if data.isEmpty then (.ok (), rec, e :: es)
    else match e with
      | .interrupted => writeAll data rec es
      | .error c => (.error (.io c), rec, es)
      | .accept n =>
        if n = 0 then (.error .writeZero, rec, es)
        else writeAll (data.drop n) (rec ++ data.take n) es := by
  cases e <;> rfl

theorem writeAll_spec (data rec : Bytes) (es : List WriteEvent) :
    ((writeAll data rec es).1 = .ok () ∧ (writeAll data rec es).2.1 = rec ++ data) ∨
    (∃ e, (writeAll data rec es).1 = .error e ∧ e.isIo = true) ∧ ∃ a b, data = a ++ b ∧ (writeAll data rec es).2.1 = rec ++ a := by
  induction es generalizing data rec with
  | nil => exact .inl ⟨rfl, rfl⟩
  | cons e es ih =>
    rw [writeAll_cons]
    by_cases h : data.isEmpty
    · rw [if_pos h]
      rw [List.isEmpty_iff] at h
      subst h
      exact .inl ⟨rfl, by simp⟩
    · rw [if_neg h]
      cases e with
      | interrupted => exact ih data rec
      | error c => exact .inr ⟨⟨_, rfl, rfl⟩, [], data, rfl, by simp⟩
      | accept n =>
        dsimp only
        by_cases hn : n = 0
        · rw [if_pos hn]; exact .inr ⟨⟨_, rfl, rfl⟩, [], data, rfl, by simp⟩
        · rw [if_neg hn]
          rcases ih (data.drop n) (rec ++ data.take n) with ⟨h1, h2⟩ | ⟨h1, a, b, h2, h3⟩
          · exact .inl ⟨h1, by rw [h2]; simp⟩
          · refine .inr ⟨h1, data.take n ++ a, b, ?_, by rw [h3]; simp⟩
            rw [List.append_assoc, ← h2, List.take_append_drop]

/-- no call of the underlying `Write` fails from here on -/
def Sink.Reliable (s : Sink) : Prop := (∀ e ∈ s.writes, e = .interrupted ∨ ∃ n, e = .accept n ∧ n ≠ 0) ∧ ∀ e ∈ s.flushes, e = none

theorem writeAll_reliable {data rec : Bytes} {es : List WriteEvent} (h : ∀ e ∈ es, e = .interrupted ∨ ∃ n, e = .accept n ∧ n ≠ 0) :
    (writeAll data rec es).1 = .ok () ∧ ∀ e ∈ (writeAll data rec es).2.2, e = .interrupted ∨ ∃ n, e = .accept n ∧ n ≠ 0 := by
  induction es generalizing data rec with
  | nil => exact ⟨rfl, nofun⟩
  | cons e es ih =>
    rw [writeAll_cons]
    have hr := fun e he => h e (List.mem_cons_of_mem _ he)
    by_cases hd : data.isEmpty
    · rw [if_pos hd]; exact ⟨rfl, h⟩
    · rw [if_neg hd]
      rcases h e (List.mem_cons_self ..) with rfl | ⟨n, rfl, hn⟩
      · exact ih hr
      · dsimp only
        rw [if_neg hn]
        exact ih hr

/-- everything which has been emitted: received by the underlying `Write`, or in the buffer -/
def BufSink.out (k : BufSink) : Bytes := k.sink.received ++ k.buf.take k.pos

/-- there is space in the buffer -/
def BufSink.Good (k : BufSink) : Prop := k.pos < k.buf.length

theorem new_good {N : Nat} (hN : 0 < N) (s : Sink) : (BufSink.new N s).Good := by simpa [BufSink.new, BufSink.Good] using hN
theorem new_out (N : Nat) (s : Sink) : (BufSink.new N s).out = s.received := by simp [BufSink.new, BufSink.out]

theorem overwrite_length {buf bs : Bytes} {pos : Nat} (h : pos + bs.length ≤ buf.length) : (overwrite buf pos bs).length = buf.length := by
  simp [overwrite]; omega

theorem overwrite_take {buf bs : Bytes} {pos : Nat} (h : pos + bs.length ≤ buf.length) :
    (overwrite buf pos bs).take (pos + bs.length) = buf.take pos ++ bs := by
  unfold overwrite
  apply List.take_left'
  simp; omega

theorem sinkWriteAll_spec (data : Bytes) (k : BufSink) :
    (∃ s, (sinkWriteAll data).run k = .ok () { k with sink := s } ∧ s.received = k.sink.received ++ data ∧ (k.sink.Reliable → s.Reliable)) ∨
    (∃ e s, (sinkWriteAll data).run k = .err (.err e) { k with sink := s } ∧ e.isIo = true ∧ ¬ k.sink.Reliable ∧ ∃ a b, data = a ++ b ∧ s.received = k.sink.received ++ a) := by
  unfold sinkWriteAll Sink.writeAll
  dsimp only
  have hrel : k.sink.Reliable → _ := fun h => writeAll_reliable (data := data) (rec := k.sink.received) h.1
  rcases writeAll_spec data k.sink.received k.sink.writes with ⟨h1, h2⟩ | ⟨⟨e, h1, hio⟩, a, b, h2, h3⟩
  · left
    generalize writeAll data k.sink.received k.sink.writes = r at h1 h2 hrel
    obtain ⟨r1, r2, r3⟩ := r
    cases h1
    exact ⟨_, rfl, h2, fun h => ⟨(hrel h).2, h.2⟩⟩
  · right
    generalize writeAll data k.sink.received k.sink.writes = r at h1 h3 hrel
    obtain ⟨r1, r2, r3⟩ := r
    cases h1
    exact ⟨e, _, rfl, hio, fun h => (nomatch (hrel h).1), a, b, h2, h3⟩

/-- what `write_bytes` does -/
def WriteSpec (bytes : Bytes) (k : BufSink) (r : Res SinkErr BufSink Unit) : Prop :=
  (∃ k', r = .ok () k' ∧ k'.Good ∧ k'.buf.length = k.buf.length ∧ k'.out = k.out ++ bytes ∧ (k.sink.Reliable → k'.sink.Reliable) ∧ (bytes = [] → k' = k)) ∨
  (∃ e k', r = .err (.err e) k' ∧ e.isIo = true ∧ ¬ k.sink.Reliable ∧ k'.sink.received <+: k.out ++ bytes)

theorem writeBytesLoop_spec {fuel : Nat} {bytes : Bytes} {k : BufSink} (hk : k.Good) (hf : bytes.length < fuel) :
    WriteSpec bytes k ((writeBytesLoop fuel bytes).run k) := by
  induction fuel generalizing bytes k with
  | zero => omega
  | succ fuel ih =>
    rw [writeBytesLoop]
    by_cases hb : bytes.isEmpty
    · rw [if_pos hb]
      rw [List.isEmpty_iff] at hb
      subst hb
      exact .inl ⟨k, rfl, hk, rfl, by simp, id, fun _ => rfl⟩
    · rw [if_neg hb]
      rw [List.isEmpty_iff] at hb
      rw [M.bind_ok (M.run_get _)]
      dsimp only
      rw [M.bind_ok (M.run_modify _ _), M.bind_ok (M.run_get _)]
      dsimp only
      unfold BufSink.Good at hk
      have hlen : (bytes.take (min (k.buf.length - k.pos) bytes.length)).length = min (k.buf.length - k.pos) bytes.length := by simp
      generalize hc : min (k.buf.length - k.pos) bytes.length = c at hlen
      have hbl : 0 < bytes.length := List.length_pos_iff.2 hb
      have hle : k.pos + (bytes.take c).length ≤ k.buf.length := by omega
      have hl := overwrite_length hle
      have ht := overwrite_take hle
      rw [hlen] at ht
      have hdrop : (bytes.drop c).length < fuel := by simp; omega
      by_cases hfull : (overwrite k.buf k.pos (bytes.take c)).length ≤ k.pos + c
      · rw [if_pos hfull]
        have hout : k.sink.received ++ overwrite k.buf k.pos (bytes.take c) = k.out ++ bytes.take c := by
          rw [BufSink.out, List.append_assoc, ← ht, List.take_of_length_le hfull]
        rcases sinkWriteAll_spec (overwrite k.buf k.pos (bytes.take c)) { k with buf := overwrite k.buf k.pos (bytes.take c), pos := k.pos + c } with
          ⟨s, h1, h2, h3⟩ | ⟨e, s, h1, hio, h2, a, b, h3, h4⟩
        · rw [M.bind_ok h1, M.bind_ok (M.run_modify _ _)]
          dsimp only at h2 h3 ⊢
          have hg : BufSink.Good ⟨s, overwrite k.buf k.pos (bytes.take c), 0⟩ := by
            show 0 < (overwrite k.buf k.pos (bytes.take c)).length
            omega
          have ho : BufSink.out ⟨s, overwrite k.buf k.pos (bytes.take c), 0⟩ = k.out ++ bytes.take c := by
            rw [← hout, ← h2]; simp [BufSink.out]
          rcases ih hg hdrop with ⟨k', e1, e2, e3, e4, e5, _⟩ | ⟨e, k', e1, hio, e2, e3⟩
          · refine .inl ⟨k', e1, e2, e3.trans hl, ?_, fun h => e5 (h3 h), fun h => absurd h hb⟩
            rw [e4, ho, List.append_assoc, List.take_append_drop]
          · refine .inr ⟨e, k', e1, hio, fun h => e2 (h3 h), ?_⟩
            rw [ho, List.append_assoc, List.take_append_drop] at e3
            exact e3
        · rw [M.bind_err h1]
          refine .inr ⟨e, _, rfl, hio, h2, ?_⟩
          show s.received <+: _
          dsimp only at h4
          rw [h4]
          have : k.out ++ bytes = (k.sink.received ++ a) ++ (b ++ bytes.drop c) := by
            conv => lhs; rw [← List.take_append_drop c bytes, ← List.append_assoc, ← hout, h3]
            simp
          rw [this]
          exact List.prefix_append _ _
      · rw [if_neg hfull]
        have hg : BufSink.Good ⟨k.sink, overwrite k.buf k.pos (bytes.take c), k.pos + c⟩ := by
          show k.pos + c < (overwrite k.buf k.pos (bytes.take c)).length
          omega
        have ho : BufSink.out ⟨k.sink, overwrite k.buf k.pos (bytes.take c), k.pos + c⟩ = k.out ++ bytes.take c := by
          simp only [BufSink.out, ht, List.append_assoc]
        rcases ih hg hdrop with ⟨k', e1, e2, e3, e4, e5, _⟩ | ⟨e, k', e1, hio, e2, e3⟩
        · refine .inl ⟨k', e1, e2, e3.trans hl, ?_, e5, fun h => absurd h hb⟩
          rw [e4, ho, List.append_assoc, List.take_append_drop]
        · refine .inr ⟨e, k', e1, hio, e2, ?_⟩
          rw [ho, List.append_assoc, List.take_append_drop] at e3
          exact e3

theorem writeBytes_spec {bytes : Bytes} {k : BufSink} (hk : k.Good) : WriteSpec bytes k ((writeBytes bytes).run k) :=
  writeBytesLoop_spec hk (by omega)

theorem flush_spec {k : BufSink} (hk : k.Good) :
    (∃ k', flush.run k = .ok () k' ∧ k'.Good ∧ k'.buf.length = k.buf.length ∧ k'.out = k.out ∧ k'.pos = 0 ∧ (k.sink.Reliable → k'.sink.Reliable)) ∨
    (∃ e k', flush.run k = .err (.err e) k' ∧ e.isIo = true ∧ ¬ k.sink.Reliable ∧ k'.sink.received <+: k.out) := by
  unfold flush
  rw [M.bind_ok (M.run_get _)]
  rcases sinkWriteAll_spec (k.buf.take k.pos) k with ⟨s, h1, h2, h3⟩ | ⟨e, s, h1, hio, h2, a, b, h3, h4⟩
  · rw [M.bind_ok h1, M.bind_ok (M.run_modify _ _)]
    unfold sinkFlush Sink.flush
    unfold BufSink.Good at hk
    dsimp only
    cases hf : s.flushes with
    | nil => exact .inl ⟨_, rfl, Nat.lt_of_le_of_lt (Nat.zero_le _) hk, rfl, by simp [BufSink.out, h2], rfl, h3⟩
    | cons x xs =>
      cases x with
      | none =>
        refine .inl ⟨_, rfl, Nat.lt_of_le_of_lt (Nat.zero_le _) hk, rfl, by simp [BufSink.out, h2], rfl, fun h => ⟨(h3 h).1, fun e he => (h3 h).2 e ?_⟩⟩
        rw [hf]; exact List.mem_cons_of_mem _ he
      | some c =>
        refine .inr ⟨_, _, rfl, rfl, fun h => ?_, by simp [BufSink.out, h2]⟩
        have := (h3 h).2 (some c) (by rw [hf]; exact List.mem_cons_self ..)
        cases this
  · rw [M.bind_err h1]
    refine .inr ⟨e, _, rfl, hio, h2, ?_⟩
    show s.received <+: _
    rw [h4, BufSink.out, h3, ← List.append_assoc]
    exact List.prefix_append _ _

/-! ## Computations if all calls are successful -/

variable {α β : Type}

/-- Result and emitted bytes if no call of `write_bytes` and `flush` fails -/
def Tree.ideal : Tree β → Except WPanic β × Bytes
  | .ret b => (.ok b, [])
  | .panic p => (.error p, [])
  | .emit bs k => ((k (.ok ())).ideal.1, bs ++ (k (.ok ())).ideal.2)
  | .flush k => (k (.ok ())).ideal

/-- nothing is emitted behind the last flush -/
def Tree.flushed (b : Bool) : Tree β → Bool
  | .ret _ => b
  | .panic _ => b
  | .emit bs k => (k (.ok ())).flushed (b && bs.isEmpty)
  | .flush k => (k (.ok ())).flushed true

/-- Neither `write_bytes` nor `flush` is called; results satisfy `E`; panics occur only if `pan` -/
def Tree.SilentB (pan : Prop) (E : β → Prop) : Tree β → Prop
  | .ret b => E b
  | .panic _ => pan
  | .emit _ _ => False
  | .flush _ => False

/-- After a failed call there are no further calls, and panics only if `pan`; results satisfy `P`, and `E` if a call failed -/
def Tree.QuietB (pan : Prop) (P E : β → Prop) : Tree β → Prop
  | .ret b => P b
  | .panic _ => True
  | .emit _ k => (k (.ok ())).QuietB pan P E ∧ ∀ e, e.isIo = true → (k (.error e)).SilentB pan E
  | .flush k => (k (.ok ())).QuietB pan P E ∧ ∀ e, e.isIo = true → (k (.error e)).SilentB pan E

/-- there are no panics -/
abbrev Tree.Silent (E : β → Prop) (t : Tree β) : Prop := t.SilentB False E
/-- there are no panics after a failed call -/
abbrev Tree.Quiet (P E : β → Prop) (t : Tree β) : Prop := t.QuietB False P E
/-- there may be panics -/
abbrev Tree.SilentW (E : β → Prop) (t : Tree β) : Prop := t.SilentB True E
/-- there may be panics after a failed call -/
abbrev Tree.QuietW (P E : β → Prop) (t : Tree β) : Prop := t.QuietB True P E

theorem ideal_bind (t : Tree α) (f : α → Tree β) : (t.bind f).ideal = match t.ideal with
    | (.ok a, bs) => ((f a).ideal.1, bs ++ (f a).ideal.2)
    | (.error p, bs) => (.error p, bs) := by
  induction t with
  | ret a => simp [Tree.bind, Tree.ideal]
  | panic p => rfl
  | emit bs k ih =>
    rw [Tree.bind, Tree.ideal, Tree.ideal, ih]
    rcases (k (.ok ())).ideal with ⟨_ | a, bs'⟩ <;> simp
  | flush k ih => rw [Tree.bind, Tree.ideal, Tree.ideal, ih]

theorem flushed_bind (t : Tree α) (f : α → Tree β) (b : Bool) : (t.bind f).flushed b = match t.ideal.1 with
    | .ok a => (f a).flushed (t.flushed b)
    | .error _ => t.flushed b := by
  induction t generalizing b with
  | ret a => rfl
  | panic p => rfl
  | emit bs k ih => rw [Tree.bind, Tree.flushed, ih]; rfl
  | flush k ih => rw [Tree.bind, Tree.flushed, ih]; rfl

variable {pan : Prop}

theorem Tree.SilentB.mono {E E' : β → Prop} {t : Tree β} (h : t.SilentB pan E) (hE : ∀ b, E b → E' b) : t.SilentB pan E' := by
  cases t with
  | ret b => exact hE _ h
  | panic => exact h
  | emit => exact h.elim
  | flush => exact h.elim

theorem Tree.SilentB.bind {E : α → Prop} {E' : β → Prop} {t : Tree α} {f : α → Tree β} (h : t.SilentB pan E) (hf : ∀ a, E a → (f a).SilentB pan E') :
    (t.bind f).SilentB pan E' := by
  cases t with
  | ret b => exact hf _ h
  | panic => exact h
  | emit => exact h.elim
  | flush => exact h.elim

theorem Tree.SilentB.weak {E : β → Prop} {t : Tree β} (h : t.SilentB pan E) : t.SilentW E := by
  cases t with
  | ret b => exact h
  | panic => trivial
  | emit => exact h.elim
  | flush => exact h.elim

theorem Tree.QuietB.bind {P E : α → Prop} {P' E' : β → Prop} {t : Tree α} {f : α → Tree β} (h : t.QuietB pan P E) (hp : ∀ a, P a → (f a).QuietB pan P' E')
    (hf : ∀ a, E a → (f a).SilentB pan E') : (t.bind f).QuietB pan P' E' := by
  induction t with
  | ret b => exact hp _ h
  | panic => trivial
  | emit bs k ih => exact ⟨ih _ h.1, fun e he => (h.2 e he).bind hf⟩
  | flush k ih => exact ⟨ih _ h.1, fun e he => (h.2 e he).bind hf⟩

theorem Tree.QuietB.mono {P E P' E' : β → Prop} {t : Tree β} (h : t.QuietB pan P E) (hp : ∀ b, P b → P' b) (hE : ∀ b, E b → E' b) : t.QuietB pan P' E' := by
  induction t with
  | ret b => exact hp _ h
  | panic => trivial
  | emit bs k ih => exact ⟨ih _ h.1, fun e he => (h.2 e he).mono hE⟩
  | flush k ih => exact ⟨ih _ h.1, fun e he => (h.2 e he).mono hE⟩

theorem Tree.QuietB.weak {P E : β → Prop} {t : Tree β} (h : t.QuietB pan P E) : t.QuietW P E := by
  induction t with
  | ret b => exact h
  | panic => trivial
  | emit bs k ih => exact ⟨ih _ h.1, fun e he => (h.2 e he).weak⟩
  | flush k ih => exact ⟨ih _ h.1, fun e he => (h.2 e he).weak⟩

theorem Tree.SilentB.quiet {P E : β → Prop} {t : Tree β} (h : t.SilentB pan P) : t.QuietB pan P E := by
  cases t with
  | ret b => exact h
  | panic => trivial
  | emit => exact h.elim
  | flush => exact h.elim

/-- result of an execution as value -/
def resOf {ε : Type} : Res ε BufSink β → Except ε β
  | .ok b _ => .ok b
  | .err p _ => .error p

def stateOf {ε : Type} : Res ε BufSink β → BufSink
  | .ok _ k => k
  | .err _ k => k

theorem silent_run {E : β → Prop} {t : Tree β} (h : t.SilentB pan E) (k : BufSink) :
    stateOf (t.run.run k) = k ∧ (∀ b, resOf (t.run.run k) = .ok b → E b) ∧ (¬ pan → ∃ b, resOf (t.run.run k) = .ok b) := by
  cases t with
  | ret b => exact ⟨rfl, by rintro _ ⟨⟩; exact h, fun _ => ⟨b, rfl⟩⟩
  | panic => exact ⟨rfl, by rintro _ ⟨⟩, fun hp => absurd h hp⟩
  | emit => exact h.elim
  | flush => exact h.elim

/-- Either all calls succeed, with the result and output of the ideal execution, or a call fails, and the underlying `Write` has received a prefix of
the output of the ideal execution -/
theorem run_spec_panics {P E : β → Prop} {t : Tree β} (h : t.QuietB pan P E) {k : BufSink} (hk : k.Good) :
    (resOf (t.run.run k) = t.ideal.1 ∧ (stateOf (t.run.run k)).Good ∧ (stateOf (t.run.run k)).out = k.out ++ t.ideal.2 ∧
      (k.sink.Reliable → (stateOf (t.run.run k)).sink.Reliable) ∧
      (t.flushed (k.pos == 0) = true → (stateOf (t.run.run k)).pos = 0)) ∨
    (¬ k.sink.Reliable ∧ (∀ b, resOf (t.run.run k) = .ok b → E b) ∧ (stateOf (t.run.run k)).sink.received <+: k.out ++ t.ideal.2 ∧
      (¬ pan → ∃ b, resOf (t.run.run k) = .ok b)) := by
  induction t generalizing k with
  | ret b => exact .inl ⟨rfl, hk, by simp [Tree.ideal, Tree.run, stateOf], id, fun h => show k.pos = 0 by simpa [Tree.flushed] using h⟩
  | panic p => exact .inl ⟨rfl, hk, by simp [Tree.ideal, Tree.run, stateOf, M.fail], id, fun h => show k.pos = 0 by simpa [Tree.flushed] using h⟩
  | emit bs f ih =>
    rw [Tree.run, Tree.ideal]
    dsimp only
    rcases writeBytes_spec (bytes := bs) hk with ⟨k', e1, e2, e3, e4, e5, e6⟩ | ⟨e, k', e1, hio, e2, e3⟩
    · rw [e1]
      dsimp only
      rcases ih _ h.1 e2 with ⟨h1, h2, h3, h4, h5⟩ | ⟨h1, h2, h3, h4⟩
      · refine .inl ⟨h1, h2, by rw [h3, e4]; simp, fun h => h4 (e5 h), fun hfl => h5 ?_⟩
        rw [Tree.flushed] at hfl
        by_cases hb : bs = []
        · subst hb; rw [e6 rfl]; simpa using hfl
        · have : bs.isEmpty = false := by cases bs; exact absurd rfl hb; rfl
          rw [this, Bool.and_false] at hfl
          by_cases hp : (k'.pos == 0) = true
          · rw [hp]
            have mon : ∀ t : Tree β, t.flushed false = true → t.flushed true = true := by
              intro t
              induction t with
              | ret => exact fun _ => rfl
              | panic => exact fun _ => rfl
              | emit bs k ih =>
                intro h
                rw [Tree.flushed] at h ⊢
                cases bs with
                | nil => exact ih _ h
                | cons => exact h
              | flush k ih => exact fun h => h
            exact mon _ hfl
          · rw [Bool.not_eq_true] at hp; rw [hp]; exact hfl
      · refine .inr ⟨fun h => h1 (e5 h), h2, ?_, h4⟩
        rw [e4, List.append_assoc] at h3
        exact h3
    · rw [e1]
      dsimp only
      obtain ⟨h1, h2, h3⟩ := silent_run (h.2 e hio) k'
      refine .inr ⟨e2, h2, ?_, h3⟩
      rw [h1, ← List.append_assoc]
      exact e3.trans (List.prefix_append _ _)
  | flush f ih =>
    rw [Tree.run, Tree.ideal]
    dsimp only
    rcases flush_spec hk with ⟨k', e1, e2, e3, e4, e5, e6⟩ | ⟨e, k', e1, hio, e2, e3⟩
    · rw [e1]
      dsimp only
      rcases ih _ h.1 e2 with ⟨h1, h2, h3, h4, h5⟩ | ⟨h1, h2, h3, h4⟩
      · refine .inl ⟨h1, h2, by rw [h3, e4], fun h => h4 (e6 h), fun hfl => h5 ?_⟩
        rw [e5]; exact hfl
      · refine .inr ⟨fun h => h1 (e6 h), h2, ?_, h4⟩
        rw [e4] at h3
        exact h3
    · rw [e1]
      dsimp only
      obtain ⟨h1, h2, h3⟩ := silent_run (h.2 e hio) k'
      refine .inr ⟨e2, h2, ?_, h3⟩
      rw [h1]
      exact e3.trans (List.prefix_append _ _)

/-- `run_spec_panics` without the statement about panics -/
theorem run_spec {P E : β → Prop} {t : Tree β} (h : t.QuietB pan P E) {k : BufSink} (hk : k.Good) :
    (resOf (t.run.run k) = t.ideal.1 ∧ (stateOf (t.run.run k)).Good ∧ (stateOf (t.run.run k)).out = k.out ++ t.ideal.2 ∧
      (k.sink.Reliable → (stateOf (t.run.run k)).sink.Reliable) ∧
      (t.flushed (k.pos == 0) = true → (stateOf (t.run.run k)).pos = 0)) ∨
    (¬ k.sink.Reliable ∧ (∀ b, resOf (t.run.run k) = .ok b → E b) ∧ (stateOf (t.run.run k)).sink.received <+: k.out ++ t.ideal.2) :=
  (run_spec_panics h hk).imp id fun ⟨h1, h2, h3, _⟩ => ⟨h1, h2, h3⟩

end Verif.Writer

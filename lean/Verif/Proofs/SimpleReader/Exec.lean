import Verif.Proofs.SimpleReader.Client
import Verif.Proofs.CallsRel
import Verif.Props.Cursor
/-! # The Simple reader API: execution with a stream reader -/

namespace Verif.SimpleReader
open Reader Json Cursor
open Abs (St RepC)
open SimpleReaderSpec (SKind Ans Env PassesTop Stops StopsTop Passes Pass)

variable {V : Type} {st : Settings} {T : Tops} {b : Meets.Cond} {k : Cur} {fuel : Nat} {env : Env} {v v0 : JVal}

/-! ## Reading a value and finishing the document -/

theorem trailing_meets : SMeets st T b (consumeTrailingWhitespace : X V Unit) (.cur ⟨[], true, [], false⟩) (.ok ()) (fun _ _ p => p = .done) := by
  rintro s ⟨rd, sr, rfl, hs⟩
  rcases hs with ⟨c, td, hc, hs⟩ | ⟨hs, _⟩
  · have h1 := Abs.consumeTrailing_sim hs
    rw [← hc] at h1
    obtain ⟨-, s', h2⟩ := h1
    refine ⟨(), .done, none, ?_, rfl, rfl⟩
    show (Calls.call (SCall.op (V := V) .consumeTrailingWhitespace) _).run perform _ = _
    have h3 : perform (.op .consumeTrailingWhitespace : SCall V) (some ⟨rd, sr⟩) = .ret (.ok .unit) none := by
      rw [perform_op]
      unfold handle
      dsimp only
      rw [show (runOp .consumeTrailingWhitespace : R AbsSrc Out) = Reader.consumeTrailingWhitespace >>= fun _ => pure .unit from rfl, M.bind_ok h2]
      rfl
    rw [Calls.run, h3]
    rfl
  · cases hs

theorem tops_tail (h : k.In [v0]) : k.tops.tail = [] ∧ ∀ t, k.tops.head? = some t → t = v0 := by
  obtain ⟨⟨done, h1, _⟩, _⟩ := h
  cases hk : k.tops with
  | nil => exact ⟨rfl, nofun⟩
  | cons t ts =>
    rw [hk] at h1
    cases done with
    | nil => cases h1; exact ⟨rfl, fun t h => by cases h; rfl⟩
    | cons d ds => simp at h1

theorem finish_meets {hasSeeked : Bool} (h : Here st fuel k env v) (hin : k.In [v0]) (hfit : Fits st 0 v0) (hh : hasSeeked = false → k.frames = []) :
    SMeets st T b (finish hasSeeked : X V Unit) (.cur k.advance) (.ok ()) (fun _ _ p => p = .done) := by
  unfold finish
  have hin' := hin.advance h.next
  have hstr : k.advance.str = false := by rw [Props.advance_str]; exact h.str
  have h1 : k.frames = [] → k.advance = ⟨[], true, [], false⟩ := by
    intro hf
    obtain ⟨fs, s, tops, x⟩ := k
    cases hf
    have := h.str
    cases this
    show Cur.mk [] true tops.tail false = _
    rw [(tops_tail hin).1]
  cases hasSeeked with
  | false =>
    rw [h1 (hh rfl)]
    exact trailing_meets
  | true =>
    refine seq_ok (p' := .cur ⟨[], true, [], false⟩) (unitCall_ok (v := .unit) (by nofun) ?_) trailing_meets
    rcases skipToTopLevel_step (st := st) hin' hstr with ⟨t, ht, n, h2, h3, _⟩ | h2
    · have := (tops_tail hin').2 t ht
      subst this
      have := hfit n h2
      omega
    · rw [h2]
      congr 1
      split
      · rename_i hf
        obtain ⟨fs, s, tops, x⟩ := k
        cases fs with
        | nil => exact h1 rfl
        | cons f fs => cases f <;> first | (cases hf; done) | (simp [Cur.advance] at hf)
      · rw [(tops_tail hin').1]

theorem readTop_meets {hasSeeked : Bool} (o : ValOp V) (hb : b → Passes o) (hu : b.strict → Stops o) (h : Here st fuel k env v) (hin : k.In [v0]) (hfit : Fits st 0 v0) (hh : hasSeeked = false → k.frames = []) :
    SMeets st T b (readTop fuel hasSeeked o) (.cur k) (SimpleReaderSpec.value env v o) (fun x a p => a = x ∧ p = .done) := by
  unfold readTop
  refine Meets.bind' (value_meets o hb hu h) ⟨.ok, (answer_ok _).symm, fun x a p hp _ => ?_⟩
  obtain ⟨rfl, rfl⟩ := hp
  refine Meets.bind' (finish_meets h hin hfit hh) ⟨fun _ => .ok a, rfl, fun _ _ p hp _ => ?_⟩
  exact Meets.pure ⟨rfl, hp⟩

theorem top_meets (hfit : Fits st 0 v0) : (c : TopC V) → (b → PassesTop c) → (b.strict → StopsTop c) → ∀ {k : Cur} {env : Env} {v : JVal} {hasSeeked : Bool}, Here st fuel k env v → k.In [v0] → (hasSeeked = false → k.frames = []) →
    SMeets st T b (topC fuel hasSeeked c) (.cur k) (SimpleReaderSpec.top env v c) (fun x a _ => a = x)
  | .ret r, _, hu, k, env, v, hs, h, hin, hh => by
    rw [topC, SimpleReaderSpec.top]
    exact (ofExcept_meets r).mono fun _ _ _ h => h.1
  | .seekTo path f, hb, hu, k, env, v, hs, h, hin, hh => by
    rw [topC, SimpleReaderSpec.top]
    have herr : b → ∀ (e : SErr) d', ∃ e', (topC fuel true (f (.error e))).run d' = .ret (.error e', d') ∧ SimpleReaderSpec.kind e = SimpleReaderSpec.kind e' := fun h e d' => by
      have := hb h
      rw [PassesTop] at this
      obtain ⟨e', h1, h2⟩ := this.2 e
      rw [h1, topC]
      exact ⟨e', rfl, h2⟩
    cases hf : find path v with
    | error e =>
      exact attempt' (ans := (.err (.reader e) : Ans Unit)) (P := fun _ _ _ => True) (l := fun _ => .misuse) (unitCall_err (by nofun) (h.seek_err hf) (find_ne_other path hf)) rfl
        (fun _ _ _ _ he => nomatch he) herr
    | ok w =>
      obtain ⟨c, h1, h2, -⟩ := h.seek hf
      refine attempt_one (unitCall_ok (by nofun) h1) ?_ herr
      exact top_meets hfit (f (.ok ())) (fun h => by have := hb h; rw [PassesTop] at this; exact this.1 _) (fun h => by have := hu h; rw [StopsTop] at this; exact this.1 _) h2 (hin.step h1 (by nofun)) nofun
  | .peek f, hb, hu, k, env, v, hs, h, hin, hh => by
    rw [topC, SimpleReaderSpec.top]
    refine attempt_one (peek_ok h.peek) ?_ fun h e d' => ?_
    · exact top_meets hfit (f (.ok _)) (fun h => by have := hb h; rw [PassesTop] at this; exact this.1 _) (fun h => by have := hu h; rw [StopsTop] at this; exact this.1 _) h hin hh
    · have := hb h
      rw [PassesTop] at this
      obtain ⟨e', h1, h2⟩ := this.2 e
      rw [h1, topC]
      exact ⟨e', rfl, h2⟩
  | .op o f, hb, hu, k, env, v, hs, h, hin, hh => by
    have hb' : b → Passes o ∧ Pass fun e => f (.error e) := fun h => by
      have := hb h
      rwa [PassesTop] at this
    rw [topC, SimpleReaderSpec.top]
    refine (readTop_meets o (fun h => (hb' h).1) (fun h => by have := hu h; rw [StopsTop] at this; exact this.1) h hin hfit hh).attempt (fun x a p hp _ => ?_) fun h e d' => ?_
    · obtain ⟨rfl, rfl⟩ := hp
      exact (ofExcept_meets _).mono fun _ _ _ h => h.1
    · obtain ⟨e', h1, h2⟩ := (hb' h).2 e
      refine ⟨e', ?_, h2⟩
      rw [show f (.error e) = .error e' from h1]
      rfl

/-! ## The list of bytes -/

section
variable {σ1 σ2 : Type} [ByteSource σ1] [ByteSource σ2] {S : Verif.Sim σ1 σ2} {α : Type}

/-- the same state, with another source of the bytes -/
def SRel (S : Verif.Sim σ1 σ2) : Option (Rd σ1) → Option (Rd σ2) → Prop
  | some s1, some s2 => S.RRel (.idle false) s1.rd s2.rd ∧ s1.sr = s2.sr
  | none, none => True
  | _, _ => False

def SOutRel (S : Verif.Sim σ1 σ2) (o1 : Outcome (Option (Rd σ1)) α) (o2 : Outcome (Option (Rd σ2)) α) : Prop :=
  (∃ a s1 s2, o1 = .ret a s1 ∧ o2 = .ret a s2 ∧ SRel S s1 s2) ∨ (∃ p, o1 = .panic p ∧ o2 = .panic p) ∨ (o1 = .unspecified ∧ o2 = .unspecified)

theorem withReader_rel {sr : StrReader} {o1 : Outcome (Option (RState σ1)) α} {o2 : Outcome (Option (RState σ2)) α} (h : OutRel S o1 o2) : SOutRel S (withReader sr o1) (withReader sr o2) := by
  rcases h.cases with ⟨a, t1, t2, rfl, rfl, h2⟩ | ⟨p, rfl, rfl⟩ | ⟨rfl, rfl⟩
  · refine .inl ⟨a, _, _, rfl, rfl, ?_⟩
    match t1, t2, h2 with
    | some t1, some t2, h => exact ⟨h, rfl⟩
    | none, none, _ => trivial
  · exact .inr (.inl ⟨p, rfl, rfl⟩)
  · exact .inr (.inr ⟨rfl, rfl⟩)

theorem perform_rel (hX : ∀ e, ¬ S.X e) (c : SCall V) {s1 : Option (Rd σ1)} {s2 : Option (Rd σ2)} (h : SRel S s1 s2) : SOutRel S (perform c s1) (perform c s2) := by
  cases s1 with
  | none =>
    cases s2 with
    | some s2 => exact h.elim
    | none =>
    cases c with
    | op op => cases op <;> first | exact .inr (.inr ⟨rfl, rfl⟩) | exact .inl ⟨_, _, _, rfl, rfl, trivial⟩
    | _ => exact .inr (.inr ⟨rfl, rfl⟩)
  | some s1 =>
    cases s2 with
    | none => exact h.elim
    | some s2 =>
    obtain ⟨r1, sr⟩ := s1
    obtain ⟨r2, sr'⟩ := s2
    obtain ⟨h, hsr⟩ := h
    dsimp only at h hsr
    subst hsr
    cases c with
    | op op =>
      rw [perform_op, perform_op]
      exact withReader_rel (handle_rel hX op (show StRel S (some r1) (some r2) from h))
    | stringStart =>
      have hr := Verif.Sim.nextStringReaderT r1 r2 h
      unfold RelAt at hr
      unfold perform
      dsimp only
      cases h1 : Reader.nextStringReader.run r1 with
      | ok a t1 =>
        cases h2 : Reader.nextStringReader.run r2 with
        | ok c t2 =>
          rw [h1, h2] at hr
          obtain ⟨rfl, hr⟩ := hr
          exact .inl ⟨_, _, _, rfl, rfl, hr, rfl⟩
        | err e t2 => rw [h1, h2] at hr; exact hr.elim
      | err e1 t1 =>
        cases h2 : Reader.nextStringReader.run r2 with
        | ok c t2 => rw [h1, h2] at hr; exact absurd hr (hX _)
        | err e2 t2 =>
          rw [h1, h2] at hr
          rcases hr with hr | ⟨rfl, hi⟩
          · exact absurd hr (hX _)
          have key : ∀ e, e = e1 → SRel S (if e.fatal then none else some ⟨t1, sr⟩) (if e.fatal then none else some ⟨t2, sr⟩) := by
            rintro e rfl
            split
            · trivial
            · rename_i hf
              exact ⟨hi.1 ((RErr.fatal_iff e).1 (by revert hf; cases e.fatal <;> simp)), rfl⟩
          cases e1 with
          | panic p => exact .inr (.inl ⟨_, rfl, rfl⟩)
          | _ => exact .inl ⟨_, _, _, rfl, rfl, key _ rfl⟩
    | stringRead len =>
      unfold perform strRead
      dsimp only
      cases he : sr.error with
      | some e => exact .inl ⟨_, _, _, rfl, rfl, trivial⟩
      | none =>
        dsimp only
        have hr := Verif.Sim.strReadImplT len sr r1 r2 h
        unfold RelAt at hr
        cases h1 : (strReadImpl len sr).run r1 with
        | ok a t1 =>
          cases h2 : (strReadImpl len sr).run r2 with
          | ok c t2 =>
            rw [h1, h2] at hr
            obtain ⟨rfl, hr⟩ := hr
            exact .inl ⟨_, _, _, rfl, rfl, hr, rfl⟩
          | err e t2 => rw [h1, h2] at hr; exact hr.elim
        | err e1 t1 =>
          cases h2 : (strReadImpl len sr).run r2 with
          | ok c t2 => rw [h1, h2] at hr; exact absurd hr (hX _)
          | err e2 t2 =>
            rw [h1, h2] at hr
            rcases hr with hr | ⟨rfl, hi⟩
            · exact absurd hr (hX _)
            cases e1 with
            | panic p => exact .inr (.inl ⟨_, rfl, rfl⟩)
            | _ => exact .inl ⟨_, _, _, rfl, rfl, trivial⟩
    | deserialize d => exact withReader_rel (run_rel hX (De.deserializeNext d) (show StRel S (some r1) (some r2) from h))

theorem srun_rel (hX : ∀ e, ¬ S.X e) (t : Calls (SCall V) (SRes V) α) : ∀ {s1 : Option (Rd σ1)} {s2 : Option (Rd σ2)}, SRel S s1 s2 → SOutRel S (t.run perform s1) (t.run perform s2) := by
  induction t with
  | ret a => intro s1 s2 h; exact .inl ⟨a, s1, s2, rfl, rfl, h⟩
  | panic p => intro s1 s2 h; exact .inr (.inl ⟨p, rfl, rfl⟩)
  | call op k ih =>
    intro s1 s2 h
    rw [Calls.run, Calls.run]
    rcases perform_rel hX op h with ⟨a, t1, t2, e1, e2, h2⟩ | ⟨p, e1, e2⟩ | ⟨e1, e2⟩
    · rw [e1, e2]; exact ih a h2
    · rw [e1, e2]; exact .inr (.inl ⟨p, rfl, rfl⟩)
    · rw [e1, e2]; exact .inr (.inr ⟨rfl, rfl⟩)
end

theorem srun_abs {α : Type} {N : Nat} (hN : 0 < N) {sched : List ReadEvent} {bytes : Bytes} {e : Option Nat} (hd : Delivers sched bytes e) (st : Settings) (t : Calls (SCall V) (SRes V) α) :
    (t.run perform (some ⟨new (BufSrc.new N sched) st, StrReader.new⟩)).forget = (t.run perform (some ⟨new (σ := AbsSrc) ⟨bytes, e, []⟩ st, StrReader.new⟩)).forget := by
  have h := srun_rel (S := BufSrc.sim hN st) (fun _ => BufSrc.SX.no) t
    (s1 := some ⟨new (BufSrc.new N sched) st, StrReader.new⟩) (s2 := some ⟨new (σ := AbsSrc) ⟨BufSrc.schedBytes sched, BufSrc.schedError sched, []⟩ st, StrReader.new⟩)
    ⟨Verif.Sim.RRel.mk (S := BufSrc.sim hN st) (BufSrc.BRel.new sched) .., rfl⟩
  rw [(Props.delivers_sched hd).1, (Props.delivers_sched hd).2] at h
  rcases h with ⟨a, t1, t2, e1, e2, _⟩ | ⟨p, e1, e2⟩ | ⟨e1, e2⟩ <;> rw [e1, e2] <;> rfl

end Verif.SimpleReader

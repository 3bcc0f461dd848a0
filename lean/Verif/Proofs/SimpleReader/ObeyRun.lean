import Verif.Proofs.SimpleReader.Obey
import Verif.Proofs.SimpleReader.Place
import Verif.Proofs.SimpleReader.Exec
import Verif.Proofs.De.ObeyRun
/-! # Executions of the Simple reader API with arbitrary data -/

namespace Verif.SimpleReader.Arb
open Reader Usage Obey SimpleReaderSpec Abs

/-! ## Number of remaining bytes -/

theorem less_seekToLoop {p : PathPiece} {ps : List PathPiece} : Less (seekToLoop (p :: ps) : R AbsSrc _) := by
  unfold seekToLoop
  refine Less.after ?_ fun _ => pot_seekToLoop _
  cases p with
  | arrayItem i => exact less_beginArray.after fun _ => pot_seekItems _ _
  | objectMember n => exact less_beginObject.after fun _ => .get fun _ => pot_seekMembers _ _

theorem less_finishArray : Less (finishArray : R AbsSrc _) := by
  unfold finishArray
  exact .get fun s => .before (pot_skipItems _) fun _ => less_endArray

theorem less_finishObject : Less (finishObject : R AbsSrc _) := by
  unfold finishObject
  exact .get fun s => .before (pot_skipMembers _) fun _ => less_endObject

theorem less_seekBackLoop {p : PathPiece} {ps : List PathPiece} : Less (seekBackLoop (p :: ps) : R AbsSrc _) := by
  cases p with
  | arrayItem i => unfold seekBackLoop; exact less_finishArray.after fun _ => pot_seekBackLoop _
  | objectMember n => unfold seekBackLoop; exact less_finishObject.after fun _ => pot_seekBackLoop _

theorem less_advances {op : Op} (h : advances op = true) : Less (runOp op : R AbsSrc _) := by
  cases op with
  | seekTo path =>
    cases path with
    | nil => cases h
    | cons p ps => exact Less.after (m := seekTo (p :: ps)) (.before pot_peek fun _ => less_seekToLoop) fun _ => .pure _
  | seekBack path =>
    have hp : path.reverse ≠ [] := by
      cases path with
      | nil => cases h
      | cons p ps => simp
    refine Less.after (m := seekBack path) ?_ fun _ => .pure _
    unfold seekBack
    cases hr : path.reverse with
    | nil => exact absurd hr hp
    | cons p ps => exact less_seekBackLoop
  | _ => exact less_runOp h

theorem less_readByte {k : SyntaxKind} : Less (readByte k : R AbsSrc _) := by
  intro s a s' h
  unfold readByte at h
  obtain ⟨o, s1, h1, h2⟩ := M.bind_eq_ok.1 h
  obtain ⟨rfl, -⟩ := peekByte_ok h1
  cases o with
  | none => cases h2
  | some b =>
    obtain ⟨_, s2, h3, h4⟩ := M.bind_eq_ok.1 h2
    cases h4
    have h5 := eats_skipPeekedByte _ _ _ h3
    have h6 : s'.peeked = s1.peeked := Kp.skipPeekedByte _ _ _ h3
    show s'.src.rest.length + pl s'.peeked < s1.src.rest.length + pl s1.peeked
    rw [h6]
    omega

theorem less_readStringBytes : Less (readStringBytes : R AbsSrc _) := by
  have h1 : ∀ k, Pot (readByte k : R AbsSrc _) := fun _ => pot_readByte
  have h2 := pot_escapeChar h1
  have h3 : ∀ b, Pot (readUtf8Multibyte readByte b : R AbsSrc _) := fun _ => pot_multibyte h1
  unfold readStringBytes
  refine less_readByte.after fun _ => ?_
  pot <;> first | exact h1 _ | exact h3 _

/-! ## String value readers -/

/-- the buffer of the string value reader -/
def Buf (sr : StrReader) : Prop := sr.utf8Buf.length = 3 ∧ sr.utf8Count ≤ 3

theorem strConsume_ok {len : Nat} : ∀ {bs : Bytes} {sr sr' : StrReader} {out out' : Bytes} {s s' : St}, Buf sr → (strConsume len bs sr out).run s = .ok (sr', out') s' →
    Buf sr' ∧ s' = s ∧ sr'.reachedEnd = sr.reachedEnd := by
  intro bs
  induction bs with
  | nil => intro sr sr' out out' s s' hb h; cases h; exact ⟨hb, rfl, rfl⟩
  | cons b bs ih =>
    intro sr sr' out out' s s' hb h
    unfold strConsume at h
    split at h
    · exact ih hb h
    · split at h
      · rename_i hc
        have := ih (sr := { sr with utf8Buf := sr.utf8Buf.set sr.utf8Count b, utf8Count := sr.utf8Count + 1 }) ⟨by rw [List.length_set]; exact hb.1, by have := hb.1; show sr.utf8Count + 1 ≤ 3; omega⟩ h
        exact this
      · cases h

theorem onValueEnd_sra {s s' : St} {u : Unit} (h : (onValueEnd : R AbsSrc _).run s = .ok u s') : s'.stringReaderActive = s.stringReaderActive := by
  unfold onValueEnd at h
  rw [run_get] at h
  obtain ⟨p, s1, h1, h2⟩ := M.bind_eq_ok.1 h
  cases h2
  rfl

theorem strReadLoop_ok {len : Nat} : ∀ {n : Nat} {sr sr' : StrReader} {out out' : Bytes} {s s' : St}, Buf sr → sr.reachedEnd = false → (strReadLoop len n sr out).run s = .ok (sr', out') s' →
    Buf sr' ∧ (sr'.reachedEnd = true → s'.stringReaderActive = false) ∧ (sr'.reachedEnd = false → len ≤ out'.length ∧ (out.length < len → left s' < left s)) := by
  intro n
  induction n with
  | zero =>
    intro sr sr' out out' s s' hb he h
    unfold strReadLoop at h
    split at h
    · cases h
    · rename_i hl
      cases h
      exact ⟨hb, fun h => (by rw [he] at h; cases h), fun _ => ⟨by omega, fun h => absurd h hl⟩⟩
  | succ n ih =>
    intro sr sr' out out' s s' hb he h
    unfold strReadLoop at h
    split at h
    · split at h
      · cases h
      · obtain ⟨⟨re, bytes⟩, s1, h1, h2⟩ := M.bind_eq_ok.1 h
        obtain ⟨⟨sr1, out1⟩, s2, h3, h4⟩ := M.bind_eq_ok.1 h2
        clear h h2
        obtain ⟨hb1, rfl, hr1⟩ := strConsume_ok hb h3
        have hl := less_readStringBytes _ _ _ h1
        cases re with
        | true =>
          obtain ⟨_, s3, h5, h6⟩ := M.bind_eq_ok.1 h4
          cases h5
          obtain ⟨_, s4, h7, h8⟩ := M.bind_eq_ok.1 h6
          cases h8
          exact ⟨hb1, fun _ => onValueEnd_sra h7, nofun⟩
        | false =>
          have h5 := ih hb1 (hr1.trans he) h4
          refine ⟨h5.1, h5.2.1, fun h => ⟨(h5.2.2 h).1, fun _ => ?_⟩⟩
          exact Nat.lt_of_le_of_lt ((pot_strReadLoop _ _ _ _).ok h4) hl
    · rename_i hl
      cases h
      exact ⟨hb, fun h => (by rw [he] at h; cases h), fun _ => ⟨by omega, fun h => absurd h hl⟩⟩

theorem strDrain_ok {len : Nat} {sr sr' : StrReader} {out : Bytes} {s s' : St} (hb : Buf sr) (h : (strDrain len sr).run s = .ok (sr', out) s') :
    Buf sr' ∧ s' = s ∧ sr'.reachedEnd = sr.reachedEnd ∧ out.length ≤ 3 := by
  unfold strDrain at h
  split at h
  · dsimp only at h
    cases hx : BufSrc.slice? sr.utf8Buf sr.utf8Start (sr.utf8Start + min sr.utf8Count len) with
    | none => rw [hx] at h; cases h
    | some bs =>
      rw [hx] at h
      have hbs : bs.length ≤ 3 := by
        unfold BufSrc.slice? at hx
        split at hx
        · cases hx
          have := hb.2
          simp only [List.length_take, List.length_drop]
          omega
        · cases hx
      have := hb.1
      have := hb.2
      dsimp only at h
      split at h <;> cases h
      · exact ⟨⟨hb.1, Nat.zero_le _⟩, rfl, rfl, hbs⟩
      · exact ⟨⟨hb.1, by dsimp only; omega⟩, rfl, rfl, hbs⟩
  · cases h
    exact ⟨hb, rfl, rfl, Nat.zero_le _⟩

theorem strReadImpl_ok {len : Nat} {sr sr' : StrReader} {out : Bytes} {s s' : St} (hb : Buf sr) (he : sr.reachedEnd = false) (h : (strReadImpl len sr).run s = .ok (sr', out) s') :
    Buf sr' ∧ (sr'.reachedEnd = true → s'.stringReaderActive = false) ∧ (sr'.reachedEnd = false → len ≤ out.length ∧ (3 < len → left s' < left s)) := by
  unfold strReadImpl at h
  split at h
  · rename_i hc
    cases h
    rw [he] at hc
    have hl : len = 0 := by simpa using hc
    exact ⟨hb, fun h => (by rw [he] at h; cases h), fun _ => ⟨by omega, fun h => by omega⟩⟩
  · obtain ⟨⟨sr1, out1⟩, s1, h1, h2⟩ := M.bind_eq_ok.1 h
    obtain ⟨hb1, rfl, hr, hl⟩ := strDrain_ok hb h1
    obtain ⟨h3, h4, h5⟩ := strReadLoop_ok hb1 (hr.trans he) h2
    exact ⟨h3, h4, fun h => ⟨(h5 h).1, fun h' => (h5 h).2 (by omega)⟩⟩

theorem strReadImpl_ended {len : Nat} {sr : StrReader} {s : St} (h : sr.reachedEnd = true) : (strReadImpl len sr).run s = .ok (sr, []) s := by
  unfold strReadImpl
  rw [h]
  rfl

/-! ## `has_next` -/

/-- the next token is the end of an array or object -/
def Ended (s : St) : Prop := s.peeked = some .arrayEnd ∨ s.peeked = some .objectEnd

theorem pio_peeked {s s' : St} {p : Peeked} {o : Option Peeked} (hp : s.peeked = some p) (h : peekInternalOptional.run s = .ok o s') : o = some p ∧ s' = s := by
  unfold peekInternalOptional at h
  rw [run_get] at h
  split at h
  · cases h
  rw [if_pos (by rw [hp]; rfl)] at h
  cases h
  exact ⟨hp, rfl⟩

theorem pi_peeked {s s' : St} {p q : Peeked} (hp : s.peeked = some p) (h : (peekInternal : R AbsSrc _).run s = .ok q s') : q = p ∧ s' = s := by
  unfold peekInternal at h
  obtain ⟨o, s1, h1, h2⟩ := M.bind_eq_ok.1 h
  obtain ⟨rfl, rfl⟩ := pio_peeked hp h1
  cases h2
  exact ⟨rfl, rfl⟩

theorem Ended.peek {s s' : St} {v : ValueType} (h : Ended s) (hr : (Reader.peek : R AbsSrc _).run s = .ok v s') : False := by
  unfold Reader.peek at hr
  rw [run_get] at hr
  split at hr
  · cases hr
  · obtain ⟨p, s1, h1, h2⟩ := M.bind_eq_ok.1 hr
    rcases h with h | h <;> (obtain ⟨rfl, rfl⟩ := pi_peeked h h1; cases h2)

theorem Ended.hasNext {s s' : St} {b : Bool} (h : Ended s) (hr : (Reader.hasNext : R AbsSrc _).run s = .ok b s') : b = false := by
  unfold Reader.hasNext at hr
  rw [run_get] at hr
  split at hr
  · cases hr
  · obtain ⟨o, s1, h1, h2⟩ := M.bind_eq_ok.1 hr
    have ho : o = some .arrayEnd ∨ o = some .objectEnd := by
      split at h1
      · split at h1
        · cases h1
        · split at h1
          · cases h1
          · rcases h with h | h
            · exact .inl (pio_peeked h h1).1
            · exact .inr (pio_peeked h h1).1
      · obtain ⟨p, s2, h3, h4⟩ := M.bind_eq_ok.1 h1
        cases h4
        rcases h with h | h
        · exact .inl (congrArg _ (pi_peeked h h3).1)
        · exact .inr (congrArg _ (pi_peeked h h3).1)
    rcases ho with rfl | rfl
    all_goals
      dsimp only at h2
      rw [run_get] at h2
      split at h2
      · cases h2
      · cases h2; rfl

theorem Ended.skipName {s s' : St} {u : Unit} (h : Ended s) (hr : (Reader.skipName : R AbsSrc _).run s = .ok u s') : False := by
  unfold Reader.skipName at hr
  obtain ⟨_, s1, h1, -⟩ := M.bind_eq_ok.1 hr
  unfold beforeName at h1
  rw [run_get] at h1
  split at h1
  · cases h1
  · split at h1
    · cases h1
    · obtain ⟨b, s2, h2, h3⟩ := M.bind_eq_ok.1 h1
      cases h.hasNext h2
      cases h3

theorem ended_of {s s' : St} (hs : s.stack ≠ []) (hr : (Reader.hasNext : R AbsSrc _).run s = .ok false s') : Ended s' := by
  unfold Reader.hasNext at hr
  rw [run_get] at hr
  split at hr
  · cases hr
  · obtain ⟨o, s1, h1, h2⟩ := M.bind_eq_ok.1 hr
    rw [if_neg (by simpa using hs)] at h1
    obtain ⟨p, s2, h3, h4⟩ := M.bind_eq_ok.1 h1
    cases h4
    have hp := peekInternal_ok h3
    dsimp only at h2
    rw [run_get] at h2
    split at h2
    · cases h2
    · have : s' = s1 ∧ (p != .arrayEnd && p != .objectEnd) = false := by
        generalize (p != .arrayEnd && p != .objectEnd) = x at h2 ⊢
        cases h2
        exact ⟨rfl, rfl⟩
      obtain ⟨rfl, hq⟩ := this
      cases p <;> first | exact .inl hp | exact .inr hp | cases hq

theorem stack_of {st : Settings} {inp : Bytes} {g : Prop} {m : Mode} {s : St} (h : InvT st inp g m s) (hf : m.frames ≠ []) : s.stack ≠ [] := by
  unfold InvT at h
  change (noTerm s).stack ≠ []
  generalize noTerm s = t at h
  cases h with
  | @«at» c _ h =>
    rw [h.looks.stack]
    cases c with
    | top d => exact absurd rfl hf
    | _ => exact List.cons_ne_nil _ _
  | @active c l pos r x y _ _ _ _ =>
    show c.stack ≠ []
    cases c with
    | top d => exact absurd rfl hf
    | _ => exact List.cons_ne_nil _ _

/-! ## The methods -/

variable {V α : Type} {st : Settings} {inp : Bytes} {g : Prop}

/-- the state of the reader is as known -/
inductive State (st : Settings) (inp : Bytes) (g : Prop) : Know → Option (Rd AbsSrc) → Prop
  | free {k : Know} {rd : St} {sr : StrReader} (hf : k.Free) (hs : InvT st inp g k.mode rd) (hl : left rd = k.left) (he : k.atEnd = true → Ended rd)
      (hsr : k.str = some true → sr.reachedEnd = true ∧ sr.error = none) : State st inp g k (some ⟨rd, sr⟩)
  | str {k : Know} {rd : St} {sr : StrReader} (s0 s1 : St) (sr0 : StrReader) (lens : List Nat) (rs : List Bytes) (hstr : k.str = some false) (hg : k.gone = false)
      (hs : InvT st inp g k.mode s0) (ha : k.mode.canValue st.allowMultipleTopLevel = true) (h0 : (Reader.nextStringReader : R AbsSrc _).run s0 = .ok sr0 s1)
      (h1 : (strReadsOk lens sr0).run s1 = .ok (sr, rs) rd) (hl : left rd = k.left) (hr : sr.reachedEnd = false) (he : sr.error = none) (hb : Buf sr) : State st inp g k (some ⟨rd, sr⟩)
  | gone {k : Know} {m : Mode} {rd rd' : St} {o : Out} (hg : k.gone = true) (hs : InvT st inp g m rd) (hr : (runOp .consumeTrailingWhitespace).run rd = .ok o rd') : State st inp g k none

theorem not_panic {m : Mode} {op : Op} {e : RErr} {s : St} (h : Err st inp g m op e s) (ha : m.allowed st.allowMultipleTopLevel op = true) (p : Panic) : e ≠ .panic p := by
  rintro rfl
  cases h with
  | panic h => rw [ha] at h; cases h
  | fatal h hp => exact hp _ rfl
  | nonfatal m' h => exact Bool.noConfusion h

theorem State.of_free {k : Know} {s : Option (Rd AbsSrc)} (h : State st inp g k s) (hf : k.Free) : ∃ rd sr, s = some ⟨rd, sr⟩ ∧ InvT st inp g k.mode rd ∧ left rd = k.left ∧ (k.atEnd = true → Ended rd) := by
  cases h with
  | free _ hs hl he => exact ⟨_, _, rfl, hs, hl, he⟩
  | str _ _ _ _ _ hstr => exact absurd hstr hf.1
  | gone hg => have := hf.2; rw [hg] at this; cases this

/-- the state after a method -/
def nextKnow (k : Know) (op : Op) (o : Out) (s : St) : Know :=
  ⟨k.mode.next o op, none, decide (op = .hasNext ∧ o = .bool false ∧ k.mode.frames ≠ []), left s, decide (op = .consumeTrailingWhitespace)⟩

theorem op_fit {k : Know} {op : Op} {s : Option (Rd AbsSrc)} (hs : State st inp g k s) (hf : k.Free) (ha : k.mode.allowed st.allowMultipleTopLevel op = true) :
    FitAt (rules st.allowMultipleTopLevel) (State st inp g) perform k s (.op op : SCall V) := by
  obtain ⟨rd, sr, rfl, hs, hl, he⟩ := hs.of_free hf
  have hw := call_any (op := op) hs
  unfold Wp at hw
  unfold FitAt
  rw [perform_op]
  unfold handle
  dsimp only
  cases hr : (runOp op).run rd with
  | ok o s' =>
    rw [hr] at hw
    refine .inr ⟨by cases op <;> rfl, nextKnow k op o s', ⟨o, rfl, rfl, nofun, fun h => decide_eq_false h, ?_, fun h => ?_, fun h => ⟨?_, ?_⟩, fun h1 h2 h3 => decide_eq_true ⟨h1, h2, h3⟩, fun h => decide_eq_true h⟩, ?_⟩
    · rw [← hl]; exact (pot_runOp op).ok hr
    · rw [← hl]; exact less_advances h _ _ _ hr
    · rintro rfl
      obtain ⟨_, _, h1, _⟩ := M.bind_eq_ok.1 hr
      exact (he h).peek h1
    · rintro rfl
      obtain ⟨_, _, h1, _⟩ := M.bind_eq_ok.1 hr
      exact (he h).skipName h1
    · by_cases hc : op = .consumeTrailingWhitespace
      · subst hc
        rw [if_pos rfl]
        exact .gone rfl hs hr
      · rw [if_neg hc]
        refine .free ⟨nofun, decide_eq_false hc⟩ (hw.2 hc) rfl (fun h => ?_) nofun
        obtain ⟨rfl, rfl, h3⟩ := of_decide_eq_true h
        obtain ⟨b, s2, h1, h2⟩ := M.bind_eq_ok.1 hr
        cases h2
        exact ended_of (stack_of hs h3) h1
  | err e s' =>
    rw [hr] at hw
    have hp := not_panic hw ha
    have hn : ∀ b, op ≠ .currentPosition b := by
      rintro b rfl
      cases hr
    have hfail : ∀ e : RErr, failed (.op op : SCall V) (.error e) = true := by
      intro e
      cases op <;> first | rfl | exact absurd rfl (hn _)
    cases e with
    | panic p => exact absurd rfl (hp p)
    | _ => exact .inl (hfail _)

theorem canValue_allowed {m : Mode} {multi : Bool} (lens : List Nat) (h : m.canValue multi = true) : m.allowed multi (.stringReader lens) = true := h

theorem stringReader_run (lens : List Nat) (s : St) : (runOp (.stringReader lens) : R AbsSrc _).run s = match (Reader.nextStringReader : R AbsSrc _).run s with
    | .ok sr s1 => match (strReadsOk lens sr).run s1 with
      | .ok (_, rs) s2 => .ok (.reads rs) s2
      | .err e s2 => .err e s2
    | .err e s1 => .err e s1 := by
  show (Reader.nextStringReader >>= fun sr => strReadsOk lens sr >>= fun q => pure (Out.reads q.2) : R AbsSrc Out).run s = _
  cases h : (Reader.nextStringReader : R AbsSrc _).run s with
  | err e s1 => rw [M.bind_err h]
  | ok sr s1 =>
    rw [M.bind_ok h]
    dsimp only
    cases h1 : (strReadsOk lens sr).run s1 with
    | err e s2 => rw [M.bind_err h1]
    | ok q s2 => rw [M.bind_ok h1]; rfl

theorem start_fit {k : Know} {s : Option (Rd AbsSrc)} (hs : State st inp g k s) (hf : k.Free) (ha : k.mode.canValue st.allowMultipleTopLevel = true) :
    FitAt (rules st.allowMultipleTopLevel) (State st inp g) perform k s (.stringStart : SCall V) := by
  obtain ⟨rd, sr, rfl, hs, hl, he⟩ := hs.of_free hf
  have hw := call_any (op := .stringReader []) hs
  have hrun := stringReader_run [] rd
  unfold Wp at hw
  unfold FitAt perform
  dsimp only
  cases hr : (Reader.nextStringReader : R AbsSrc _).run rd with
  | ok sr0 s1 =>
    have hless : left s1 < left rd := by
      rw [hr] at hrun
      exact less_runOp (op := .stringReader []) rfl _ _ _ hrun
    have hsr : sr0 = StrReader.new := by
      unfold Reader.nextStringReader at hr
      obtain ⟨_, s2, _, h2⟩ := M.bind_eq_ok.1 hr
      obtain ⟨_, s3, _, h3⟩ := M.bind_eq_ok.1 h2
      cases h3
      rfl
    subst hsr
    exact .inr ⟨rfl, ⟨k.mode, some false, false, left s1, false⟩, ⟨rfl, rfl, rfl, rfl, by rw [← hl]; exact hless⟩, .str rd s1 StrReader.new [] [] rfl rfl hs ha hr rfl rfl rfl rfl ⟨rfl, Nat.zero_le _⟩⟩
  | err e s' =>
    rw [hr] at hrun
    rw [hrun] at hw
    have hp := not_panic hw (canValue_allowed [] ha)
    cases e with
    | panic p => exact absurd rfl (hp p)
    | _ => exact .inl rfl

theorem read_fit {k : Know} {len : Nat} {s : Option (Rd AbsSrc)} (hs : State st inp g k s) (hg : k.gone = false) (hm : ∃ e, k.str = some e) :
    FitAt (rules st.allowMultipleTopLevel) (State st inp g) perform k s (.stringRead len : SCall V) := by
  cases hs with
  | gone h => rw [hg] at h; cases h
  | @free rd sr hf hs hl he hsr =>
    have hk : k.str = some true := by
      obtain ⟨e, h⟩ := hm
      cases e with
      | true => exact h
      | false => exact absurd h hf.1
    obtain ⟨h1, h2⟩ := hsr hk
    unfold FitAt perform strRead
    dsimp only
    rw [h2]
    dsimp only
    rw [strReadImpl_ended h1]
    exact .inr ⟨rfl, k, ⟨[], true, rfl, hk, hg, fun _ => ⟨rfl, rfl, rfl, rfl⟩, Nat.le_refl _, fun h => (by rw [hk] at h; cases h), fun h => (by rw [hk] at h; cases h)⟩, .free hf hs hl he hsr⟩
  | @str rd sr s0 s1 sr0 lens rs hstr _ hs ha h0 h1 hl hr he hb =>
    have hw := call_any (op := .stringReader (lens ++ [len])) hs
    have hrun := stringReader_run (lens ++ [len]) s0
    rw [h0] at hrun
    dsimp only at hrun
    rw [strReadsOk_snoc, h1] at hrun
    dsimp only at hrun
    unfold Wp at hw
    unfold FitAt perform strRead
    dsimp only
    rw [he]
    dsimp only
    cases h2 : (strReadImpl len sr).run rd with
    | ok q s2 =>
      obtain ⟨sr', bs⟩ := q
      rw [h2] at hrun
      dsimp only at hrun
      rw [hrun] at hw
      obtain ⟨-, hinv⟩ := hw
      have hinv := hinv nofun
      obtain ⟨h3, h4, h5⟩ := strReadImpl_ok hb hr h2
      have h6 := (strReadImpl_error len h2).trans he
      have h7 := (pot_strReadImpl len sr).ok h2
      cases hre : sr'.reachedEnd with
      | true =>
        have hmode : k.mode.next (.reads (rs ++ [bs])) (.stringReader (lens ++ [len])) = k.mode.valueDone := by
          have h8 := h4 hre
          change InvT st inp g (if Mode.strDone (lens ++ [len]) (.reads (rs ++ [bs])) then k.mode.valueDone else { k.mode with str := true }) s2 at hinv
          show (if Mode.strDone (lens ++ [len]) (.reads (rs ++ [bs])) then k.mode.valueDone else { k.mode with str := true }) = _
          cases hd : Mode.strDone (lens ++ [len]) (.reads (rs ++ [bs])) with
          | true => rfl
          | false =>
            exfalso
            rw [hd] at hinv
            change InvT st inp g { k.mode with str := true } s2 at hinv
            unfold InvT at hinv
            change (noTerm s2).stringReaderActive = false at h8
            generalize hm : ({ k.mode with str := true } : Mode) = m at hinv
            generalize noTerm s2 = t at hinv h8
            cases hinv with
            | @«at» c _ h =>
              have : c.mode.str = true := by rw [← hm]
              cases c <;> cases this
            | active => cases h8
        rw [hmode] at hinv
        refine .inr ⟨rfl, ⟨k.mode.valueDone, some true, false, left s2, false⟩, ⟨bs, true, rfl, rfl, rfl, fun h => (by rw [hstr] at h; cases h), ?_, fun _ _ => rfl, nofun⟩,
          .free ⟨nofun, rfl⟩ hinv rfl nofun fun _ => ⟨hre, h6⟩⟩
        rw [← hl]; exact h7
      | false =>
        obtain ⟨h8, h9⟩ := h5 hre
        refine .inr ⟨rfl, ⟨k.mode, some false, false, left s2, false⟩, ⟨bs, false, rfl, rfl, rfl, fun h => (by rw [hstr] at h; cases h), ?_, nofun, fun _ _ => ⟨rfl, h8, fun h => ?_⟩⟩,
          .str s0 s1 sr0 (lens ++ [len]) (rs ++ [bs]) rfl rfl hs ha h0 ?_ rfl hre h6 h3⟩
        · rw [← hl]; exact h7
        · rw [← hl]; exact h9 h
        · rw [strReadsOk_snoc, h1]
          dsimp only
          rw [h2]
    | err e s2 =>
      rw [h2] at hrun
      dsimp only at hrun
      rw [hrun] at hw
      have hp := not_panic hw (canValue_allowed _ ha)
      cases e with
      | panic p => exact absurd rfl (hp p)
      | _ => exact .inl rfl

theorem deserialize_fit {k : Know} {d : De.De V} {s : Option (Rd AbsSrc)} (hs : State st inp g k s) (hf : k.Free) (ha : k.mode.canValue st.allowMultipleTopLevel = true) (hd : DeSpec.Orderly d) :
    FitAt (rules st.allowMultipleTopLevel) (State st inp g) perform k s (.deserialize d : SCall V) := by
  obtain ⟨rd, sr, rfl, hs, hl, he⟩ := hs.of_free hf
  have h := De.Arb.Follows.run (De.Arb.follows_next hd) hs ha
  unfold FitAt perform
  dsimp only
  cases hr : (De.deserializeNext d).run handle (some rd) with
  | ret r s' =>
    rw [hr] at h
    cases r with
    | error e => exact .inl rfl
    | ok v =>
      obtain ⟨s1, rfl, h1, h2⟩ := h
      exact .inr ⟨rfl, ⟨k.mode.valueDone, none, false, left s1, false⟩, ⟨v, rfl, ⟨nofun, rfl⟩, rfl, by rw [← hl]; exact h2⟩, .free ⟨nofun, rfl⟩ h1 rfl nofun nofun⟩
  | panic p => rw [hr] at h; exact .inr h
  | unspecified => rw [hr] at h; exact h

theorem perform_fit : Fit (rules st.allowMultipleTopLevel) (State st inp g) (perform (V := V)) := by
  intro k s c hs hm
  cases c with
  | op op => exact op_fit hs hm.1 hm.2
  | stringStart => exact start_fit hs hm.1 hm.2
  | stringRead len => exact read_fit hs hm.1 hm.2
  | deserialize d => exact deserialize_fit hs hm.1 hm.2.1 hm.2.2

end Verif.SimpleReader.Arb

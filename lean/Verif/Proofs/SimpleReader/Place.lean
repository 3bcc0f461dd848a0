import Verif.Proofs.Calls
import Verif.Proofs.De.Client
import Verif.Proofs.Cursor
import Verif.Spec.SimpleReader
import Verif.Spec.Orderly
/-! # The Simple reader API: calls of the methods of the reader at a place in a document -/

namespace Verif.SimpleReader
open Reader Json Cursor
open Abs (St RepC)
open SimpleReaderSpec (SKind Ans Env)

variable {V : Type} {st : Settings} {T : Tops} {b : Meets.Cond} {k : Cur}

/-! ## String value readers -/

theorem strConsume_error (len : Nat) {σ : Type} [ByteSource σ] : ∀ (bs : Bytes) {sr sr' : StrReader} {out out' : Bytes} {s s' : RState σ},
    (strConsume len bs sr out).run s = .ok (sr', out') s' → sr'.error = sr.error
  | [], sr, sr', out, out', s, s', h => by cases h; rfl
  | c :: bs, sr, sr', out, out', s, s', h => by
    unfold strConsume at h
    split at h
    · exact strConsume_error len bs h
    split at h
    · exact (strConsume_error len bs h :)
    · cases h

theorem strReadLoop_error (len : Nat) {σ : Type} [ByteSource σ] : ∀ (fuel : Nat) {sr sr' : StrReader} {out out' : Bytes} {s s' : RState σ},
    (strReadLoop len fuel sr out).run s = .ok (sr', out') s' → sr'.error = sr.error
  | 0, sr, sr', out, out', s, s', h => by
    unfold strReadLoop at h
    split at h
    · cases h
    · cases h; rfl
  | fuel + 1, sr, sr', out, out', s, s', h => by
    unfold strReadLoop at h
    split at h
    · split at h
      · cases h
      cases h1 : readStringBytes.run s with
      | err e s1 => rw [M.bind_err h1] at h; cases h
      | ok r s1 =>
        rw [M.bind_ok h1] at h
        cases h2 : (strConsume len r.2 sr out).run s1 with
        | err e s2 => rw [M.bind_err h2] at h; cases h
        | ok q s2 =>
          have h3 := strConsume_error len _ h2
          rw [M.bind_ok h2] at h
          dsimp only at h
          split at h
          · rw [M.bind_ok (M.run_modify ..)] at h
            cases h4 : onValueEnd.run { s2 with stringReaderActive := false } with
            | err e s3 => rw [M.bind_err h4] at h; cases h
            | ok u s3 =>
              rw [M.bind_ok h4] at h
              cases h
              exact h3
          · exact (strReadLoop_error len fuel h).trans h3
    · cases h; rfl

theorem strReadImpl_error (len : Nat) {σ : Type} [ByteSource σ] {sr sr' : StrReader} {out : Bytes} {s s' : RState σ} (h : (strReadImpl len sr).run s = .ok (sr', out) s') : sr'.error = sr.error := by
  unfold strReadImpl at h
  split at h
  · cases h; rfl
  cases h1 : (strDrain len sr).run s with
  | err e s1 => rw [M.bind_err h1] at h; cases h
  | ok q s1 =>
    rw [M.bind_ok h1] at h
    refine (strReadLoop_error len len h).trans ?_
    unfold strDrain at h1
    split at h1
    · dsimp only at h1
      split at h1
      · cases h1
      · split at h1 <;> cases h1 <;> rfl
    · cases h1; rfl

theorem strReadsOk_snoc {σ : Type} [ByteSource σ] (l : Nat) : ∀ (lens : List Nat) (sr : StrReader) (s : RState σ), (strReadsOk (lens ++ [l]) sr).run s = match (strReadsOk lens sr).run s with
    | .ok (sr', rs) s' => match (strReadImpl l sr').run s' with
      | .ok (sr'', bs) s'' => .ok (sr'', rs ++ [bs]) s''
      | .err e s'' => .err e s''
    | .err e s' => .err e s'
  | [], sr, s => by
    have e : (strReadsOk [l] sr : R σ _) = strReadImpl l sr >>= fun q => pure (q.1, [q.2]) := rfl
    have e' : (strReadsOk [] sr : R σ _).run s = .ok (sr, []) s := rfl
    rw [List.nil_append, e, e']
    dsimp only
    cases h : (strReadImpl l sr).run s with
    | ok a s' => rw [M.bind_ok h]; rfl
    | err e s' => rw [M.bind_err h]
  | l' :: lens, sr, s => by
    have e : ∀ ls, (strReadsOk (l' :: ls) sr : R σ _) = strReadImpl l' sr >>= fun q => strReadsOk ls q.1 >>= fun q' => pure (q'.1, q.2 :: q'.2) := fun _ => rfl
    rw [List.cons_append, e, e]
    cases h : (strReadImpl l' sr).run s with
    | err e s' => rw [M.bind_err h, M.bind_err h]
    | ok a s' =>
      rw [M.bind_ok h, M.bind_ok h]
      have ih := strReadsOk_snoc l lens a.1 s'
      cases h1 : (strReadsOk lens a.1).run s' with
      | err e s1 =>
        rw [h1] at ih
        rw [M.bind_err ih, M.bind_err h1]
      | ok q s1 =>
        rw [h1] at ih
        rw [M.bind_ok h1]
        dsimp only at ih ⊢
        have e' : (pure (q.1, a.2 :: q.2) : R σ (StrReader × List Bytes)).run s1 = .ok (q.1, a.2 :: q.2) s1 := rfl
        rw [e']
        dsimp only
        cases h2 : (strReadImpl l q.1).run s1 with
        | err e s2 => rw [h2] at ih; rw [M.bind_err ih]
        | ok w s2 => rw [h2] at ih; rw [M.bind_ok ih]; rfl

theorem chunks_snoc (l : Nat) : ∀ (lens : List Nat) (bs : Bytes), chunks (lens ++ [l]) bs = chunks lens bs ++ [(bs.drop lens.sum).take l]
  | [], bs => by rw [List.nil_append, chunks, chunks, chunks, List.sum_nil, List.drop_zero, List.nil_append]
  | l' :: lens, bs => by
    rw [List.cons_append, chunks, chunks, chunks_snoc l lens, List.sum_cons, List.drop_drop, List.cons_append]

/-! ## Places -/

/-- `cur`: at the cursor. `str k t n`: `k` is in front of the string `t`; a string value reader is active, and buffers of a total size of `n` have been read from it. `done`: the reader has been
consumed. -/
inductive Place where
  | cur (k : Cur)
  | str (k : Cur) (t : Text) (n : Nat)
  | done

def AtP (st : Settings) (T : Tops) : Place → Option (Rd AbsSrc) → Prop
  | .cur k, s => ∃ rd sr, s = some ⟨rd, sr⟩ ∧ RepC st T k rd
  | .str k t n, s => ∃ rd sr s0 lens sr0 s1 rs, s = some ⟨rd, sr⟩ ∧ RepC st T k s0 ∧ k.canValue st.allowMultipleTopLevel = true ∧ k.next = some (.str t) ∧
      Reader.nextStringReader.run s0 = .ok sr0 s1 ∧ (strReadsOk lens sr0).run s1 = .ok (sr, rs) rd ∧ rs = chunks lens (enc t) ∧ lens.sum = n ∧ sr.error = none
  | .done, s => s = none

abbrev SMeets (st : Settings) (T : Tops) (b : Meets.Cond) {α β : Type} (m : X V α) (p : Place) (ans : Ans β) (P : β → α → Place → Prop) : Prop :=
  Meets perform (AtP st T) SimpleReaderSpec.kind SimpleReaderSpec.Misused b m none p ans P Meets.never

/-- the result is the specified one, at the given place -/
abbrev To {α : Type} (c : Cur) : α → α → Place → Prop := fun x a p => a = x ∧ p = .cur c

variable {α β γ : Type}

theorem SMeets.place {m : X V α} {p p' : Place} {ans : Ans β} {P : β → α → Place → Prop} (h : ∀ s, AtP st T p s → AtP st T p' s) (hm : SMeets st T b m p' ans P) : SMeets st T b m p ans P :=
  fun s hs => hm s (h s hs)

/-- `Meets.bind` for code which has just one result -/
theorem seq_ok {m : X V α} {x : α} {p p' : Place} {f : α → X V β} {ans : Ans γ} {P : γ → β → Place → Prop} (h : SMeets st T b m p (.ok x) (fun x a q => a = x ∧ q = p'))
    (hf : SMeets st T b (f x) p' ans P) : SMeets st T b (m >>= f) p ans P := by
  show SMeets st T b _ p ((Answer.ok x : Ans α) >>= fun _ => ans) P
  refine h.bind fun y a k' h he => ?_
  cases he
  obtain ⟨rfl, rfl⟩ := h
  exact hf

theorem ofExcept_meets {p : Place} (r : Except SErr α) : SMeets st T b (CT.ofExcept r : X V α) p (Ans.of r) (fun x a q => a = x ∧ q = p) := by
  cases r with
  | ok a => exact Meets.pure ⟨rfl, rfl⟩
  | error e => exact Meets.fail rfl

/-! ## Calls -/

theorem useDelegate_run (c : SCall V) (f : SRes V c → Except SErr α) (s : Option (Rd AbsSrc)) : ((useDelegate c f).run none).run perform s = match perform c s with
    | .ret r s' => match f r with
      | .ok a => .ret (.ok a, none) s'
      | .error e => .ret (.error e, some (toStore e)) s'
    | .panic p => .panic p
    | .unspecified => .unspecified := by
  show (Calls.call c _).run perform s = _
  rw [Calls.run]
  cases perform c s with
  | ret r s' =>
    dsimp only
    rw [Calls.bind]
    dsimp only
    cases f r <;> rfl
  | panic p => rfl
  | unspecified => rfl

theorem perform_op {σ : Type} [ByteSource σ] (op : Op) (s : Rd σ) : perform (.op op : SCall V) (some s) = withReader s.sr (Reader.handle op (some s.rd)) := by cases op <;> rfl

theorem delegate_ok {c : SCall V} {f : SRes V c → Except SErr α} {p p' : Place} {x : α}
    (h : ∀ s, AtP st T p s → ∃ r s', perform c s = .ret r s' ∧ f r = .ok x ∧ AtP st T p' s') : SMeets st T b (useDelegate c f) p (.ok x) (fun x a q => a = x ∧ q = p') := by
  intro s hs
  obtain ⟨r, s', h1, h2, h3⟩ := h s hs
  refine ⟨x, p', s', ?_, h3, rfl, rfl⟩
  rw [useDelegate_run, h1]
  dsimp only
  rw [h2]

theorem delegate_err {c : SCall V} {f : SRes V c → Except SErr α} {p : Place} {e : SKind} {P : γ → α → Place → Prop}
    (h : ∀ s, AtP st T p s → ∃ r s' y, perform c s = .ret r s' ∧ f r = .error y ∧ SimpleReaderSpec.kind y = e) : SMeets st T b (useDelegate c f) p (.err e) P := by
  intro s hs _
  obtain ⟨r, s', y, h1, h2, h3⟩ := h s hs
  refine ⟨y, some (toStore y), s', ?_, h3⟩
  rw [useDelegate_run, h1]
  dsimp only
  rw [h2]

/-- after an error -/
theorem err_bind {m : X V α} {p : Place} {e : SKind} {f : α → X V β} {P : γ → β → Place → Prop} (h : SMeets st T b m p (.err e : Ans Unit) (fun _ _ _ => True)) :
    SMeets st T b (m >>= f) p (.err e) P := Meets.bind (ans := (.err e : Ans Unit)) (l := fun _ => (.misuse : Ans γ)) h fun _ _ _ _ he => nomatch he

theorem op_ok {op : Op} {v : Val} {c : Cur} {f : Except RErr Out → Except SErr α} {x : α} (hct : op ≠ .consumeTrailingWhitespace) (hs : Cursor.step st k op = .ok v c)
    (hf : ∀ o, valOf o = v → f (.ok o) = .ok x) : SMeets st T b (useDelegate (.op op) f : X V α) (.cur k) (.ok x) (To c) := by
  refine delegate_ok fun s hk => ?_
  obtain ⟨rd, sr, rfl, hk⟩ := hk
  have h1 := handle_step hct ⟨rd, rfl, hk⟩
  rw [hs] at h1
  obtain ⟨o, s', h2, h3, s1, rfl, h4⟩ := h1
  refine ⟨.ok o, some ⟨s1, sr⟩, ?_, hf o h3, s1, sr, rfl, h4⟩
  rw [perform_op, h2]
  rfl

theorem op_err {op : Op} {e : Kind} {f : Except RErr Out → Except SErr α} {P : γ → α → Place → Prop} (hct : op ≠ .consumeTrailingWhitespace)
    (hs : stepAnswer (Cursor.step st k op) = .err e) (he : e ≠ .other) (hf : ∀ x, f (.error x) = .error (.reader x)) :
    SMeets st T b (useDelegate (.op op) f : X V α) (.cur k) (.err (.reader e)) P := by
  refine delegate_err fun s hk => ?_
  obtain ⟨rd, sr, rfl, hk⟩ := hk
  have h1 := handle_step hct ⟨rd, rfl, hk⟩
  rw [hs] at h1
  obtain ⟨x, s', h2, h3⟩ := h1 he
  refine ⟨.error x, s'.map fun rd => ⟨rd, sr⟩, .reader x, ?_, hf x, congrArg _ h3⟩
  rw [perform_op, h2]
  rfl

theorem unitCall_ok {op : Op} {v : Val} {c : Cur} (hct : op ≠ .consumeTrailingWhitespace) (hs : Cursor.step st k op = .ok v c) : SMeets st T b (unitCall op : X V Unit) (.cur k) (.ok ()) (To c) :=
  op_ok hct hs fun _ _ => rfl

theorem boolCall_ok {op : Op} {x : Bool} {c : Cur} (hct : op ≠ .consumeTrailingWhitespace) (hs : Cursor.step st k op = .ok (.bool x) c) : SMeets st T b (boolCall op : X V Bool) (.cur k) (.ok x) (To c) :=
  op_ok hct hs fun o h => by cases o <;> cases h; rfl

theorem textCall_ok {op : Op} {x : Text} {c : Cur} (hct : op ≠ .consumeTrailingWhitespace) (hs : Cursor.step st k op = .ok (.text x) c) : SMeets st T b (textCall op : X V Text) (.cur k) (.ok x) (To c) :=
  op_ok hct hs fun o h => by cases o <;> cases h; rfl

theorem peek_ok {x : ValueType} {c : Cur} (hs : Cursor.step st k .peek = .ok (.type x) c) : SMeets st T b (peek : X V ValueType) (.cur k) (.ok x) (To c) :=
  op_ok (by nofun) hs fun o h => by cases o <;> cases h; rfl

theorem unitCall_err {op : Op} {e : Kind} {P : γ → Unit → Place → Prop} (hct : op ≠ .consumeTrailingWhitespace) (hs : stepAnswer (Cursor.step st k op) = .err e) (he : e ≠ .other) :
    SMeets st T b (unitCall op : X V Unit) (.cur k) (.err (.reader e)) P := op_err hct hs he fun _ => rfl
theorem boolCall_err {op : Op} {e : Kind} {P : γ → Bool → Place → Prop} (hct : op ≠ .consumeTrailingWhitespace) (hs : stepAnswer (Cursor.step st k op) = .err e) (he : e ≠ .other) :
    SMeets st T b (boolCall op : X V Bool) (.cur k) (.err (.reader e)) P := op_err hct hs he fun _ => rfl
theorem textCall_err {op : Op} {e : Kind} {P : γ → Text → Place → Prop} (hct : op ≠ .consumeTrailingWhitespace) (hs : stepAnswer (Cursor.step st k op) = .err e) (he : e ≠ .other) :
    SMeets st T b (textCall op : X V Text) (.cur k) (.err (.reader e)) P := op_err hct hs he fun _ => rfl
theorem peek_err {e : Kind} {P : γ → ValueType → Place → Prop} (hs : stepAnswer (Cursor.step st k .peek) = .err e) (he : e ≠ .other) :
    SMeets st T b (peek : X V ValueType) (.cur k) (.err (.reader e)) P := op_err (by nofun) hs he fun _ => rfl

theorem position_ok (b' : Bool) {p : Place} (hp : ∃ k, p = .cur k) : SMeets st T b (currentPosition b' : X V (Option Position)) p (.ok ()) (fun _ _ q => q = p) := by
  obtain ⟨k, rfl⟩ := hp
  intro s hk
  obtain ⟨rd, sr, rfl, hk⟩ := hk
  have h1 := handle_step (op := .currentPosition b') (by nofun) ⟨rd, rfl, hk⟩
  have hs : Cursor.step st k (.currentPosition b') = .ok (.path (if b' && st.trackPath then some k.path else none)) k := rfl
  rw [hs] at h1
  obtain ⟨o, s', h2, h3, s1, rfl, h4⟩ := h1
  cases o with
  | position q =>
    refine ⟨some q, .cur k, some ⟨s1, sr⟩, ?_, ⟨s1, sr, rfl, h4⟩, rfl⟩
    show (Calls.call (SCall.op (V := V) (.currentPosition b')) _).run perform _ = _
    rw [Calls.run]
    have h5 : perform (.op (.currentPosition b') : SCall V) (some ⟨rd, sr⟩) = .ret (.ok (.position q)) (some ⟨s1, sr⟩) := by
      unfold perform
      dsimp only
      rw [h2]
      rfl
    rw [h5]
    rfl
  | _ => cases h3

/-! ## The string value reader -/

theorem string_start {t : Text} (hc : k.canValue st.allowMultipleTopLevel = true) (hn : k.next = some (.str t)) :
    SMeets st T b (nextStringReader : X V Unit) (.cur k) (.ok ()) (fun x a q => a = x ∧ q = .str k t 0) := by
  refine delegate_ok fun s hk => ?_
  obtain ⟨rd, sr, rfl, hk⟩ := hk
  have h1 := Abs.step_sim hk (.stringReader []) (by nofun)
  have hs : Cursor.step st k (.stringReader []) = .ok (.reads []) { k with str := true } := by
    unfold Cursor.step
    dsimp only
    rw [withValue_some hc hn]
    dsimp only [chunks]
    rw [if_neg (by simp)]
  rw [hs] at h1
  obtain ⟨o, s', h2, h3, h4⟩ := h1
  have hnew : ∀ sr0 s1, Reader.nextStringReader.run rd = .ok sr0 s1 → sr0.error = none := by
    intro sr0 s1 h
    unfold Reader.nextStringReader at h
    cases h5 : (startExpectedValueType .string false).run rd with
    | err e s2 => rw [M.bind_err h5] at h; cases h
    | ok a s2 => rw [M.bind_ok h5] at h; cases h; rfl
  cases h5 : Reader.nextStringReader.run rd with
  | err e s1 =>
    rw [show (runOp (.stringReader []) : R AbsSrc Out) = Reader.nextStringReader >>= _ from rfl, M.bind_err h5] at h2
    cases h2
  | ok sr0 s1 =>
    refine ⟨.ok (), some ⟨s1, sr0⟩, ?_, rfl, s1, sr0, rd, [], sr0, s1, [], rfl, hk, hc, hn, h5, rfl, rfl, rfl, hnew _ _ h5⟩
    unfold perform
    dsimp only
    rw [h5]

theorem string_start_err {e : Kind} {P : γ → Unit → Place → Prop} (hs : Cursor.step st k (.stringReader []) = .err e k) (he : e ≠ .other) :
    SMeets st T b (nextStringReader : X V Unit) (.cur k) (.err (.reader e)) P := by
  refine delegate_err fun s hk => ?_
  obtain ⟨rd, sr, rfl, hk⟩ := hk
  have h1 := Abs.step_sim hk (.stringReader []) (by nofun)
  rw [hs] at h1
  obtain ⟨x, s', h2, h3, h4, h5⟩ := h1
  cases h6 : Reader.nextStringReader.run rd with
  | ok sr0 s1 =>
    rw [show (runOp (.stringReader []) : R AbsSrc Out) = Reader.nextStringReader >>= _ from rfl, M.bind_ok h6] at h2
    cases h2
  | err e s1 =>
    rw [show (runOp (.stringReader []) : R AbsSrc Out) = Reader.nextStringReader >>= _ from rfl, M.bind_err h6] at h2
    cases h2
    refine ⟨.error x, if x.fatal then none else some ⟨s', sr⟩, .reader x, ?_, rfl, congrArg _ h3⟩
    unfold perform
    dsimp only
    rw [h6]
    cases x with
    | panic p => exact absurd h3.symm he
    | _ => rfl

theorem stringRead_run (len : Nat) (s : Option (Rd AbsSrc)) : ((stringRead len : X V Bytes).run none).run perform s = match perform (.stringRead len : SCall V) s with
    | .ret (.ok bs) s' => .ret (.ok bs, none) s'
    | .ret (.error e) s' => .ret (.error (.string e), some (toStore (.string e))) s'
    | .panic p => .panic p
    | .unspecified => .unspecified := by
  show (Calls.call (SCall.stringRead (V := V) len) _).run perform s = _
  rw [Calls.run]
  cases perform (.stringRead len : SCall V) s with
  | ret r s' => cases r <;> rfl
  | panic p => rfl
  | unspecified => rfl

theorem string_read {t : Text} {n : Nat} (l : Nat) : SMeets st T b (stringRead l : X V Bytes) (.str k t n) (.ok (((enc t).drop n).take l)) (fun x a q => a = x ∧ q = .str k t (n + l)) := by
  rintro s ⟨rd, sr, s0, lens, sr0, s1, rs, rfl, hk, hc, hn, h1, h2, rfl, rfl, he⟩
  have h3 := Abs.step_sim hk (.stringReader (lens ++ [l])) (by nofun)
  have hs : Cursor.step st k (.stringReader (lens ++ [l])) = .ok (.reads (chunks (lens ++ [l]) (enc t))) (if (enc t).length < (lens ++ [l]).sum then k.advance else { k with str := true }) := by
    unfold Cursor.step
    dsimp only
    rw [withValue_some hc hn]
  rw [hs] at h3
  obtain ⟨o, s', h4, h5, _⟩ := h3
  rw [show (runOp (.stringReader (lens ++ [l])) : R AbsSrc Out) = Reader.nextStringReader >>= _ from rfl, M.bind_ok h1] at h4
  have h6 := strReadsOk_snoc l lens sr0 s1
  rw [h2] at h6
  dsimp only at h6
  cases h7 : (strReadImpl l sr).run rd with
  | err e s2 => rw [h7] at h6; rw [M.bind_err h6] at h4; cases h4
  | ok q s2 =>
    obtain ⟨sr', bs⟩ := q
    rw [h7] at h6
    dsimp only at h6
    rw [M.bind_ok h6] at h4
    cases h4
    have h8 : chunks lens (enc t) ++ [bs] = chunks (lens ++ [l]) (enc t) := by exact (Val.reads.inj h5 :)
    have h9 := h8
    rw [chunks_snoc] at h9
    have h10 : bs = ((enc t).drop lens.sum).take l := by simpa using h9
    have h11 : perform (.stringRead l : SCall V) (some ⟨rd, sr⟩) = .ret (.ok bs) (some ⟨s', sr'⟩) := by
      unfold perform
      dsimp only
      unfold strRead
      rw [he]
      dsimp only
      rw [h7]
    refine ⟨bs, .str k t (lens.sum + l), some ⟨s', sr'⟩, by rw [stringRead_run, h11], ⟨s', sr', s0, lens ++ [l], sr0, s1, _, rfl, hk, hc, hn, h1, h6, h8, by simp, (strReadImpl_error l h7).trans he⟩, h10, rfl⟩

/-- behind the string -/
theorem string_end {t : Text} {n : Nat} (hn : (enc t).length < n) {s : Option (Rd AbsSrc)} (h : AtP st T (.str k t n) s) : AtP st T (.cur k.advance) s := by
  obtain ⟨rd, sr, s0, lens, sr0, s1, rs, rfl, hk, hc, hnx, h1, h2, rfl, rfl, he⟩ := h
  have h3 := Abs.step_sim hk (.stringReader lens) (by nofun)
  have hs : Cursor.step st k (.stringReader lens) = .ok (.reads (chunks lens (enc t))) k.advance := by
    unfold Cursor.step
    dsimp only
    rw [withValue_some hc hnx]
    dsimp only
    rw [if_pos hn]
  rw [hs] at h3
  obtain ⟨o, s', h4, h5, h6⟩ := h3
  rw [show (runOp (.stringReader lens) : R AbsSrc Out) = Reader.nextStringReader >>= _ from rfl, M.bind_ok h1, M.bind_ok h2] at h4
  cases h4
  exact ⟨rd, sr, rfl, h6⟩

end Verif.SimpleReader

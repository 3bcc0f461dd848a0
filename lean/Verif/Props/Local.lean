import Verif.Proofs.Abs.Steps
import Verif.Props.Calls
import Verif.Spec.Progress
/-!
# Progress of the reader, and how far it looks ahead
-/

namespace Verif.Props
open Reader Usage Json Abs Position Progress

variable {N : Nat} {st : Settings} {bytes bytes1 bytes2 : Bytes} {e e1 e2 : Option Nat} {sched sched1 sched2 : List ReadEvent} {rs : List (Except RErr Out)} {pre : List Op} {op : Op} {o : Out} {P P' : Position}

theorem consumes_reads (op : Op) : consumes op = reads op := by cases op <;> rfl

theorem count_eq : ∀ (ops : List Op) (rs : List (Except RErr Out)), count ops rs = readCount ops rs := by
  intro ops
  induction ops with
  | nil => intro rs; rfl
  | cons op ops ih =>
    intro rs
    cases rs with
    | nil => rfl
    | cons r rs => cases r <;> simp [count, readCount, ih, consumes_reads]

theorem position_of {s : St} {b : Bool} {P : Position} (h : runOps [.currentPosition b] s = [.ok (.position P)]) : P = currentPosition s b := by
  rw [runOps_one] at h
  injection h with h
  injection h with h
  injection h with h
  exact h.symm

/-! ## C29 -/

/-- C29: the reader never goes back, and a successful call which reads or skips a value or member name, or starts or ends an array or object, consumes at least one byte -/
theorem C29_progress (hN : 0 < N) (st : Settings) (sched : List ReadEvent)
    (hr : runReader N st sched (pre ++ [.currentPosition false, op, .currentPosition false]) = rs ++ [.ok (.position P), .ok o, .ok (.position P')]) (hl : rs.length = pre.length) :
    P.dataPos ≤ P'.dataPos ∧ (consumes op = true → P.dataPos < P'.dataPos) := by
  rw [runReader_eq_runAbs hN] at hr
  obtain ⟨s, h1, h2⟩ := steps_of_eq hr hl
  obtain ⟨s1, h3, h4⟩ := steps_of_eq (pre := [.currentPosition false, op]) (rs := [.ok (.position P), .ok o]) (tail := []) h2 rfl
  cases h3 with
  | ok _ h5 h3 =>
    cases h5
    cases h3 with
    | ok _ h6 h3 =>
      cases h3
      cases position_of h4
      refine ⟨runOp_pos_ok h6, fun hc => ?_⟩
      exact (fwd_runOp (consumes_reads op ▸ hc) _ _ _ h6).2

/-- C29: no matter in which order and how often methods are called, also after errors: at most as many calls which read or skip something are successful as there are bytes in the
input. Therefore a loop `while has_next { … }` whose body reads or skips something ends. -/
theorem C29_reads_bounded (hN : 0 < N) (st : Settings) (hd : Delivers sched bytes e) (ops : List Op) : count ops (runReader N st sched ops) ≤ bytes.length := by
  rw [count_eq, runReader_abs hN hd]
  exact runOps_readCount ops _

/-- each of the four calls which read something in `[1,2]` consumes at least one byte; the positions of the first two of them -/
example : runReader 4 Settings.default [.data [0x5B, 0x31, 0x2C, 0x32, 0x5D]] ([.beginArray] ++ [.currentPosition false, .nextNumberAsStr, .currentPosition false]) =
      [.ok .unit] ++ [.ok (.position ⟨none, 0, 1, 1⟩), .ok (.text ['1']), .ok (.position ⟨none, 0, 2, 2⟩)] ∧
    consumes .nextNumberAsStr = true ∧
    count [.beginArray, .nextNumberAsStr, .hasNext, .skipValue, .hasNext, .nextBool, .endArray, .nextNull]
      (runReader 4 Settings.default [.data [0x5B, 0x31, 0x2C, 0x32, 0x5D]] [.beginArray, .nextNumberAsStr, .hasNext, .skipValue, .hasNext, .nextBool, .endArray, .nextNull]) = 4 := by
  decide +kernel

/-! ## C30 -/

/-- calls on another input which is the same up to the consumed part and one more byte -/
theorem lookahead {s' : St} {ops : List Op} (h : Steps ops (new (σ := AbsSrc) ⟨bytes1, e1, []⟩ st) rs s') (hn : ∀ t l, Except.error (.unsupportedNumberValue t l) ∉ rs)
    (hb : bytes2.take (s'.bytePos + pl s'.peeked + 1) = bytes1.take (s'.bytePos + pl s'.peeked + 1)) (he : bytes1.length ≤ s'.bytePos + pl s'.peeked → e2 = e1) :
    ∃ r t, Steps ops (new (σ := AbsSrc) ⟨bytes2, e2, []⟩ st) rs (cutSt s' r t) := by
  obtain ⟨q, h1, h2⟩ := h.local
  obtain ⟨m', g', h3, h4⟩ := h.inv (invT_new bytes1 e1)
  obtain ⟨h5, h6⟩ := h4.rest (h3 hn trivial)
  have hq : q = s'.bytePos + pl s'.peeked := by
    have h7 := congrArg List.length (h1.rest.symm.trans h5)
    have h8 : q ≤ bytes1.length := h1.le
    change (bytes1.drop q).length = _ at h7
    simp only [List.length_drop] at h7
    omega
  subst hq
  exact ⟨_, _, h2 bytes2 e2 ⟨hb, he⟩ fun hm => runOps_notBad ops (invT_new bytes2 e2) _ hm (.inr rfl)⟩

/-- C30: after a successful call which reads or skips something let `P` be the position, that is, the end of what has been consumed. The results of all calls so far and the position do
not depend on the input behind `P` except for the first byte (and for how the input ends, if it ends at `P`): they are the same for every input which is the same up to and including
this byte, however the input arrives. -/
theorem C30_one_byte_lookahead {N1 N2 : Nat} (hN1 : 0 < N1) (hN2 : 0 < N2) (st : Settings) (hd1 : Delivers sched1 bytes1 e1) (hd2 : Delivers sched2 bytes2 e2) (hop : consumes op = true)
    (hr : runReader N1 st sched1 (pre ++ [op, .currentPosition true]) = rs ++ [.ok o, .ok (.position P)]) (hl : rs.length = pre.length)
    (hn : ∀ t l, Except.error (.unsupportedNumberValue t l) ∉ rs)
    (hb : bytes2.take (P.dataPos + 1) = bytes1.take (P.dataPos + 1)) (he : bytes1.length ≤ P.dataPos → e2 = e1) :
    runReader N2 st sched2 (pre ++ [op, .currentPosition true]) = rs ++ [.ok o, .ok (.position P)] := by
  rw [runReader_abs hN1 hd1] at hr
  rw [runReader_abs hN2 hd2]
  obtain ⟨s, h1, h2⟩ := steps_of_eq hr hl
  obtain ⟨s1, h3, h4⟩ := steps_of_eq (pre := [op]) (rs := [.ok o]) (tail := []) h2 rfl
  have h5 := h1.append h3
  cases position_of h4
  have hp : s1.peeked = none := by
    cases h3 with
    | ok _ h6 h3 =>
      cases h3
      exact (fwd_runOp (consumes_reads op ▸ hop) _ _ _ h6).1
  have hz : s1.bytePos + pl s1.peeked = s1.bytePos := by rw [hp]; rfl
  obtain ⟨r, t, h7⟩ := lookahead (bytes2 := bytes2) (e2 := e2) h5 (by simpa using hn) (by rw [hz]; exact hb) (by rw [hz]; exact he)
  have h8 := h7.runOps [.currentPosition true]
  rw [List.append_assoc, List.append_assoc] at h8
  exact h8

/-- C30 for all calls, including those which do not consume what they look at (`peek`, `has_next`) and those which fail without making the reader unusable: the peeked token may in
addition be looked at; it has at most 5 bytes (`false`). -/
theorem C30_lookahead {N1 N2 : Nat} (hN1 : 0 < N1) (hN2 : 0 < N2) (st : Settings) (hd1 : Delivers sched1 bytes1 e1) (hd2 : Delivers sched2 bytes2 e2)
    (hr : runReader N1 st sched1 (pre ++ [.currentPosition true]) = rs ++ [.ok (.position P)]) (hl : rs.length = pre.length)
    (hn : ∀ t l, Except.error (.unsupportedNumberValue t l) ∉ rs)
    (hb : bytes2.take (P.dataPos + 6) = bytes1.take (P.dataPos + 6)) (he : bytes1.length < P.dataPos + 6 → e2 = e1) :
    runReader N2 st sched2 (pre ++ [.currentPosition true]) = rs ++ [.ok (.position P)] := by
  rw [runReader_abs hN1 hd1] at hr
  rw [runReader_abs hN2 hd2]
  obtain ⟨s, h1, h2⟩ := steps_of_eq hr hl
  cases position_of h2
  have hp : pl s.peeked ≤ 5 := by
    cases s.peeked with
    | none => exact Nat.zero_le _
    | some p => cases p <;> decide
  change bytes2.take (s.bytePos + 6) = bytes1.take (s.bytePos + 6) at hb
  obtain ⟨r, t, h7⟩ := lookahead (bytes2 := bytes2) (e2 := e2) h1 hn (by
      have := congrArg (List.take (s.bytePos + pl s.peeked + 1)) hb
      rw [List.take_take, List.take_take, Nat.min_eq_left (by omega)] at this
      exact this) (fun h => he (by show _ < s.bytePos + 6; omega))
  exact h7.runOps [.currentPosition true]

/-- the number `12` needs the byte behind it, nothing else: the second input is malformed behind the comma and ends with an error; `peek` at `false` needs the byte behind the token -/
example : runReader 4 Settings.default [.data [0x5B, 0x31, 0x32, 0x2C, 0x33, 0x5D]] ([.beginArray] ++ [.nextNumberAsStr, .currentPosition true]) =
      [.ok .unit] ++ [.ok (.text ['1', '2']), .ok (.position ⟨some [.arrayItem 1], 0, 3, 3⟩)] ∧
    [0x5B, 0x31, 0x32, 0x2C, 0xFF].take (3 + 1) = [0x5B, 0x31, 0x32, 0x2C, 0x33, 0x5D].take (3 + 1) ∧
    Delivers [.data [0x5B], .data [0x31, 0x32, 0x2C, 0xFF], .error 5] [0x5B, 0x31, 0x32, 0x2C, 0xFF] (some 5) ∧
    runReader 4 Settings.default [.data [0x66, 0x61, 0x6C, 0x73, 0x65, 0x20, 0x31]] ([.peek] ++ [.currentPosition true]) =
      [.ok (.type .boolean)] ++ [.ok (.position ⟨some [], 0, 0, 0⟩)] ∧
    runReader 4 Settings.default [.data [0x66, 0x61, 0x6C, 0x73, 0x65, 0x31]] ([.peek] ++ [.currentPosition true]) ≠
      [.ok (.type .boolean)] ++ [.ok (.position ⟨some [], 0, 0, 0⟩)] :=
  ⟨by decide +kernel, by decide, .data _ _ (.data _ _ (.failed _ _)), by decide +kernel, by decide +kernel⟩

end Verif.Props

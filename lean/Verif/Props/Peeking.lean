import Verif.Proofs.Abs.Calm
import Verif.Proofs.Abs.Place
import Verif.Props.Calls
/-!
# Peeking, and calls which fail because of the type or the structure, for arbitrary inputs

`rs` are the results of the calls `pre`; that there are as many of them as calls means that there was no panic, syntax or IO error. The position can
change by the first call which peeks, because whitespace is skipped; hence the first call which is compared must be one which looks at the next token
(`token`: all except `current_position`, `skip_to_top_level`, `seek_back` and `consume_trailing_whitespace`).
-/

namespace Verif.Props
open Reader Abs

variable {N : Nat} {st : Settings} {sched : List ReadEvent} {bytes : Bytes} {e : Option Nat} {pre : List Op} {rs : List (Except RErr Out)}

/-- the reader state behind the calls `pre` -/
theorem behind_calls {op : Op} {r : Except RErr Out} (hN : 0 < N) (hd : Delivers sched bytes e) (hl : rs.length = pre.length) (h : runReader N st sched (pre ++ [op]) = rs ++ [r]) :
    ∃ s, (∃ g m, InvT st bytes g m s) ∧ (∀ tail, runReader N st sched (pre ++ tail) = rs ++ runOps tail s) ∧
      (r = match (runOp op).run s with | .ok o _ => .ok o | .err e _ => .error e) := by
  rw [runReader_abs hN hd] at h
  unfold runAbs at h
  obtain ⟨s, g, m, _, hI, hs⟩ := runOps_reach pre (op := op) (invT_new (st := st) bytes e) (by rw [h]; simp [hl])
  have hp : runOps pre (new (σ := AbsSrc) ⟨bytes, e, []⟩ st) = rs ∧ [r] = runOps [op] s := by
    rw [hs, runOps_one] at h
    obtain ⟨h1, h2⟩ := List.append_inj' h rfl
    exact ⟨h1, by rw [runOps_one]; exact h2.symm⟩
  refine ⟨s, ⟨g, m, hI⟩, fun tail => ?_, ?_⟩
  · rw [runReader_abs hN hd, ← hp.1]
    exact hs tail
  · have := hp.2
    rw [runOps_one] at this
    revert this
    cases (runOp op).run s <;> (intro h; exact List.head_eq_of_cons_eq h)

/-- after a call which only peeked, calls which look at the next token have the same results as without it -/
theorem after_pk {op : Op} {s s' : St} {o : Option Peeked} {m : Usage.Mode} {g : Prop} (h : Pk o s s') (hI : InvT st bytes g m s') (ht : token op = true) (tail : List Op) :
    runOps (op :: tail) s = runOps (op :: tail) s' := runOps_same (h.runOp ht hI.fuel_ok)

/-- C16: if a call for a single token (`single`: every method which reads or peeks, except for `skip_value` and `seek_to`, see below) fails with
an error which is neither fatal nor `UnsupportedNumberValue` (that is: `UnexpectedValueType`, `UnexpectedStructure`, `MaxNestingDepthExceeded`) then
all later results are the same as without the failed call. -/
theorem C16_failed_call (hN : 0 < N) (hd : Delivers sched bytes e) (bad : Op) (hb : single bad = true) (x : RErr) (hx : x.fatal = false)
    (hnum : ∀ t l, x ≠ .unsupportedNumberValue t l) (hl : rs.length = pre.length) (h : runReader N st sched (pre ++ [bad]) = rs ++ [.error x])
    (op : Op) (ht : token op = true) (tail : List Op) :
    ∃ later, runReader N st sched (pre ++ bad :: op :: tail) = rs ++ .error x :: later ∧ runReader N st sched (pre ++ op :: tail) = rs ++ later := by
  obtain ⟨s, ⟨g, m, hI⟩, hs, hr⟩ := behind_calls hN hd hl h
  have hne : bad ≠ .consumeTrailingWhitespace := by rintro rfl; cases hb
  cases hm : (runOp bad).run s with
  | ok o s' => rw [hm] at hr; cases hr
  | err e1 s' =>
    rw [hm] at hr
    cases hr
    have hw := call_any (op := bad) hI
    unfold Wp at hw
    rw [hm] at hw
    rcases mis_op hb _ _ _ hm with hf | ⟨t, l, hn⟩ | ⟨o, hp⟩
    · rw [hx] at hf; cases hf
    · exact absurd hn (hnum t l)
    · have hI' : ∃ g m, InvT st bytes g m s' := by
        cases hw with
        | src => cases hx
        | panic => cases hx
        | fatal h => rw [hx] at h; cases h
        | nonfatal m' _ h => exact ⟨_, _, h hne⟩
      obtain ⟨g', m', hI'⟩ := hI'
      refine ⟨runOps (op :: tail) s, ?_, hs _⟩
      rw [hs, after_pk hp hI' ht]
      conv => lhs; unfold runOps
      rw [hm]
      simp [hx, hne]

/-- C16, `skip_value` and `seek_to` when there is no value: they behave in the same way as `peek` -/
theorem C16_nothing_to_skip (hN : 0 < N) (hd : Delivers sched bytes e) (x : RErr) (hl : rs.length = pre.length) (h : runReader N st sched (pre ++ [.peek]) = rs ++ [.error x])
    (path : List PathPiece) (tail : List Op) :
    runReader N st sched (pre ++ .skipValue :: tail) = runReader N st sched (pre ++ .peek :: tail) ∧
    runReader N st sched (pre ++ .seekTo path :: tail) = runReader N st sched (pre ++ .peek :: tail) := by
  obtain ⟨s, ⟨g, m, hI⟩, hs, hr⟩ := behind_calls hN hd hl h
  rw [hs, hs, hs]
  cases hm : (Reader.peek : R AbsSrc _).run s with
  | ok o s' =>
    have : (runOp .peek).run s = .ok (.type o) s' := M.bind_ok hm
    rw [this] at hr; cases hr
  | err e1 s' =>
    have hp : (runOp .peek).run s = .err e1 s' := M.bind_err hm
    have h1 : (runOp (.seekTo path)).run s = .err e1 s' := M.bind_err (M.bind_err hm)
    have h2 : runOps (.seekTo path :: tail) s = runOps (.peek :: tail) s := by
      unfold runOps
      rw [hp, h1]
      simp
    refine ⟨?_, by rw [h2]⟩
    by_cases he : s.expectsMemberName = true
    · have h3 : (runOp .skipValue).run s = .err (.panic (.usage .valueWhenExpectingName)) s := by
        refine M.bind_err ?_
        unfold Reader.skipValue
        rw [run_get, if_pos he]
        rfl
      have h4 : (runOp .peek).run s = .err (.panic (.usage .valueWhenExpectingName)) s := by
        refine M.bind_err ?_
        unfold Reader.peek
        rw [run_get, if_pos he]
        rfl
      unfold runOps
      rw [h3, h4]
      rfl
    · have h3 : (runOp .skipValue).run s = .err e1 s' := by
        refine M.bind_err ?_
        unfold Reader.skipValue
        rw [run_get, if_neg he]
        exact skipValueLoop_zero_eq _ (eq_false_of_ne_true he) hm
      unfold runOps
      rw [hp, h3]
      simp

/-- C16, all methods except for `seek_to`: if a call fails with `UnexpectedValueType` or `UnexpectedStructure` then all later results are the same as
without the failed call. For `skip_value` this includes that such an error is never reported from the inside of a value which has been partially skipped;
`skip_to_top_level` and `seek_back` never fail in this way (`C16_skipping_back`). -/
theorem C16_mismatch_leaves_no_trace (hN : 0 < N) (hd : Delivers sched bytes e) (bad : Op) (hb : ∀ path, bad ≠ .seekTo path) (x : RErr)
    (hx : (∃ expected actual l, x = .unexpectedValueType expected actual l) ∨ ∃ k l, x = .unexpectedStructure k l) (hl : rs.length = pre.length)
    (h : runReader N st sched (pre ++ [bad]) = rs ++ [.error x]) (op : Op) (ht : token op = true) (tail : List Op) :
    ∃ later, runReader N st sched (pre ++ bad :: op :: tail) = rs ++ .error x :: later ∧ runReader N st sched (pre ++ op :: tail) = rs ++ later := by
  have hm : mismatch x = true := by rcases hx with ⟨_, _, _, rfl⟩ | ⟨_, _, rfl⟩ <;> rfl
  have hf : x.fatal = false := by rcases hx with ⟨_, _, _, rfl⟩ | ⟨_, _, rfl⟩ <;> rfl
  have hnum : ∀ t l, x ≠ .unsupportedNumberValue t l := by rcases hx with ⟨_, _, _, rfl⟩ | ⟨_, _, rfl⟩ <;> nofun
  by_cases hs : single bad = true
  · exact C16_failed_call hN hd bad hs x hf hnum hl h op ht tail
  obtain ⟨s, ⟨g, m, hI⟩, hs', hr⟩ := behind_calls hN hd hl h
  cases hrun : (runOp bad).run s with
  | ok o s' => rw [hrun] at hr; cases hr
  | err e1 s' =>
    rw [hrun] at hr
    cases hr
    have back : ¬ (bad = .skipToTopLevel ∨ ∃ path, bad = .seekBack path) := fun h => by rw [calm_back hI h _ _ hrun] at hm; cases hm
    cases bad <;> first | exact absurd rfl hs | skip
    · have hp := calm_skipValue hI hrun hm
      have hpk : runReader N st sched (pre ++ [.peek]) = rs ++ [.error x] := by rw [hs', runOps_one, hp]
      rw [(C16_nothing_to_skip hN hd x hl hpk [] (op :: tail)).1]
      exact C16_failed_call hN hd .peek rfl x hf hnum hl hpk op ht tail
    · exact absurd (.inl rfl) back
    · exact absurd rfl (hb _)
    · exact absurd (.inr ⟨_, rfl⟩) back
    · cases hrun
    · have hw := @fatal_ws AbsSrc _ none
      have : Fatal (runOp (σ := AbsSrc) .consumeTrailingWhitespace) := by
        change Fatal (unitOut Reader.consumeTrailingWhitespace)
        unfold unitOut Reader.consumeTrailingWhitespace
        fatal
      rw [this _ _ _ hrun] at hf
      cases hf

/-- C16: `skip_to_top_level` and `seek_back` never fail with an error about the type or the structure -/
theorem C16_skipping_back (hN : 0 < N) (hd : Delivers sched bytes e) (op : Op) (ho : op = .skipToTopLevel ∨ ∃ path, op = .seekBack path) (hl : rs.length = pre.length)
    (x : RErr) (h : runReader N st sched (pre ++ [op]) = rs ++ [.error x]) :
    (∀ expected actual l, x ≠ .unexpectedValueType expected actual l) ∧ ∀ k l, x ≠ .unexpectedStructure k l := by
  obtain ⟨s, ⟨g, m, hI⟩, hs', hr⟩ := behind_calls hN hd hl h
  have : mismatch x = false := by
    cases hrun : (runOp op).run s with
    | ok o s' => rw [hrun] at hr; cases hr
    | err e1 s' => rw [hrun] at hr; cases hr; exact calm_back hI ho _ _ hrun
  constructor
  · rintro _ _ _ rfl; cases this
  · rintro _ _ rfl; cases this

/-- `skip_value` fails at the end of the outer array in `[[1] ]`; `skip_to_top_level` fails with a syntax error in `[[1,]]` -/
example : runReader 4 Settings.default [.data [0x5B, 0x5B, 0x31, 0x5D], .data [0x20, 0x5D]] [.beginArray, .skipValue, .skipValue, .hasNext, .endArray] =
    [.ok .unit, .ok .unit, .error (.unexpectedStructure .fewerElementsThanExpected ⟨some [.arrayItem 1], 0, 5, 5⟩), .ok (.bool false), .ok .unit] ∧
    runReader 4 Settings.default [.data [0x5B, 0x5B, 0x31, 0x2C], .data [0x5D, 0x5D]] [.beginArray, .skipToTopLevel] =
    [.ok .unit, .error (.syntax .trailingCommaNotEnabled ⟨some [.arrayItem 0, .arrayItem 1], 0, 3, 3⟩)] ∧
    token .hasNext = true := by decide +kernel

/-- `next_bool` and `end_array` fail at the number in `[1 x`, and at the end of `[1]`; the input of the first example is malformed -/
example : runReader 4 Settings.default [.data [0x5B, 0x20], .data [0x31, 0x20, 0x78]] [.beginArray, .nextBool, .endArray, .nextNumberAsStr, .peek] =
    [.ok .unit, .error (.unexpectedValueType .boolean .number ⟨some [.arrayItem 0], 0, 2, 2⟩), .error (.unexpectedStructure .moreElementsThanExpected ⟨some [.arrayItem 0], 0, 2, 2⟩),
      .ok (.text ['1']), .error (.syntax .malformedJson ⟨some [.arrayItem 1], 0, 4, 4⟩)] ∧
    single .nextBool = true ∧ single .endArray = true ∧ token .nextNumberAsStr = true := by decide +kernel

/-- `peek` and `has_next` -/
def looking : Op → Bool
  | .peek | .hasNext => true
  | _ => false

theorem looked {op : Op} (h : looking op = true) {s s' : St} {r : Out} (hm : (runOp op).run s = .ok r s') : ∃ o, Pk o s s' := by
  cases op <;> first | cases h; done | skip
  · change ((do let t ← Reader.peek; pure (.type t) : R AbsSrc Out)).run s = .ok r s' at hm
    rw [M.run_bind] at hm
    cases h1 : (Reader.peek : R AbsSrc _).run s with
    | ok t s1 => rw [h1] at hm; cases hm; exact peek_cases.1 h1
    | err => rw [h1] at hm; cases hm
  · change (boolOut Reader.hasNext : R AbsSrc Out).run s = .ok r s' at hm
    unfold boolOut at hm
    rw [M.run_bind] at hm
    cases h1 : (Reader.hasNext : R AbsSrc _).run s with
    | ok t s1 => rw [h1] at hm; cases hm; exact hasNext_cases.1 h1
    | err => rw [h1] at hm; cases hm

/-- C14: a successful `peek` or `has_next` does not change the result of any later call -/
theorem C14_peek_changes_nothing (hN : 0 < N) (hd : Delivers sched bytes e) (look : Op) (hk : looking look = true) (r : Out) (hl : rs.length = pre.length)
    (h : runReader N st sched (pre ++ [look]) = rs ++ [.ok r]) (op : Op) (ht : token op = true) (tail : List Op) :
    ∃ later, runReader N st sched (pre ++ look :: op :: tail) = rs ++ .ok r :: later ∧ runReader N st sched (pre ++ op :: tail) = rs ++ later := by
  obtain ⟨s, ⟨g, m, hI⟩, hs, hr⟩ := behind_calls hN hd hl h
  have hne : look ≠ .consumeTrailingWhitespace := by rintro rfl; cases hk
  cases hm : (runOp look).run s with
  | err e1 s' => rw [hm] at hr; cases hr
  | ok o s' =>
    rw [hm] at hr
    cases hr
    have hw := call_any (op := look) hI
    unfold Wp at hw
    rw [hm] at hw
    obtain ⟨o, hp⟩ := looked hk hm
    refine ⟨runOps (op :: tail) s, ?_, hs _⟩
    rw [hs, after_pk hp (hw.2 hne) ht]
    conv => lhs; unfold runOps
    rw [hm]
    simp [hne]

/-- C14: after a first successful `peek` or `has_next`, further ones change nothing at all: the results of any later calls, including the position, are
the same; repeating the same call gives the same result -/
theorem C14_peek_again (hN : 0 < N) (hd : Delivers sched bytes e) (look look2 : Op) (hk : looking look = true) (hk2 : looking look2 = true) (r r2 : Out) (hl : rs.length = pre.length)
    (h : runReader N st sched (pre ++ [look]) = rs ++ [.ok r]) (h2 : runReader N st sched (pre ++ [look2]) = rs ++ [.ok r2]) (tail : List Op) :
    ∃ later, runReader N st sched (pre ++ look :: look2 :: tail) = rs ++ .ok r :: .ok r2 :: later ∧ runReader N st sched (pre ++ look :: tail) = rs ++ .ok r :: later := by
  obtain ⟨s, ⟨g, m, hI⟩, hs, hr⟩ := behind_calls hN hd hl h
  have hne : look ≠ .consumeTrailingWhitespace := by rintro rfl; cases hk
  have hne2 : look2 ≠ .consumeTrailingWhitespace := by rintro rfl; cases hk2
  have ht2 : token look2 = true := by cases look2 <;> first | rfl | cases hk2
  have hr2 : .ok r2 = match (runOp look2).run s with | .ok o _ => Except.ok o | .err e _ => .error e := by
    rw [hs, runOps_one] at h2
    have := List.append_cancel_left h2
    revert this
    cases (runOp look2).run s <;> (intro h; exact (List.head_eq_of_cons_eq h).symm)
  cases hm : (runOp look).run s with
  | err e1 s' => rw [hm] at hr; cases hr
  | ok o s' =>
    rw [hm] at hr
    cases hr
    have hw := call_any (op := look) hI
    unfold Wp at hw
    rw [hm] at hw
    obtain ⟨o, hp⟩ := looked hk hm
    cases hm2 : (runOp look2).run s with
    | err e1 s2 => rw [hm2] at hr2; cases hr2
    | ok o2 s2 =>
      rw [hm2] at hr2
      cases hr2
      obtain ⟨o', hp2⟩ := looked hk2 hm2
      have hss : s2 = s' := by
        have := hp.run.symm.trans hp2.run
        cases this
        rfl
      subst hss
      have h3 := hp.runOp ht2 (hw.2 hne).fuel_ok
      have h4 : (runOp look2).run s2 = .ok r2 s2 := by
        rcases h3 with h3 | ⟨p, s1, s2, h3, _⟩
        · rw [← h3]; exact hm2
        · rw [hm2] at h3; cases h3
      refine ⟨runOps tail s2, ?_, ?_⟩
      · rw [hs]
        conv => lhs; unfold runOps; rw [hm]
        simp only [hne, if_false]
        conv => lhs; unfold runOps; rw [h4]
        simp [hne2]
      · rw [hs]
        conv => lhs; unfold runOps; rw [hm]
        simp [hne]

/-- the position is the same after the second call; the first one skips the space. The input is malformed. -/
example : runReader 4 Settings.default [.data [0x5B, 0x20], .data [0x31, 0x20, 0x78]] [.beginArray, .hasNext, .currentPosition false, .peek, .hasNext, .currentPosition false, .nextNumberAsStr] =
    [.ok .unit, .ok (.bool true), .ok (.position ⟨none, 0, 2, 2⟩), .ok (.type .number), .ok (.bool true), .ok (.position ⟨none, 0, 2, 2⟩), .ok (.text ['1'])] := by decide +kernel

end Verif.Props

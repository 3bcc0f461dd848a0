import Verif.Proofs.Abs.Nesting
import Verif.Proofs.Abs.Mismatch
import Verif.Props.Local
/-!
# The nesting limit for arbitrary inputs

`Nesting.nesting bytes` (`Spec/Nesting.lean`) is the nesting depth of any bytes, determined by a scanner which knows only brackets, strings and comments.
-/

namespace Verif.Props
open Reader Usage Json Abs Position Nesting

variable {N : Nat} {st : Settings} {bytes : Bytes} {e : Option Nat} {sched : List ReadEvent} {rs rt : List (Except RErr Out)} {pre tail ops : List Op} {op : Op} {n : Nat} {P l : Position}

theorem first_result {s : St} {r : Except RErr Out} (h : runOps (op :: tail) s = r :: rt) : r = match (runOp op).run s with | .ok o _ => .ok o | .err e _ => .error e := by
  rw [runOps] at h
  cases hr : (runOp op).run s with
  | ok o s' => rw [hr] at h; exact (List.head_eq_of_cons_eq h).symm
  | err e s' => rw [hr] at h; exact (List.head_eq_of_cons_eq h).symm

theorem runOps_length : ∀ (ops : List Op) (s : St), (runOps ops s).length ≤ ops.length := by
  intro ops
  induction ops with
  | nil => intro s; exact Nat.le_refl _
  | cons op ops ih =>
    intro s
    rw [runOps]
    have := ih
    cases (runOp op).run s with
    | ok o s' =>
      dsimp only
      split
      · simp
      · simpa using ih s'
    | err e s' =>
      dsimp only
      split
      · simp
      · simpa using ih s'

/-- split a run at one of its results -/
theorem runOps_split {s : St} {r : Except RErr Out} (h : runOps ops s = rs ++ r :: rt) : ∃ pre op tail, ops = pre ++ op :: tail ∧ rs.length = pre.length := by
  have hl := runOps_length ops s
  rw [h] at hl
  simp only [List.length_append, List.length_cons] at hl
  refine ⟨ops.take rs.length, ops[rs.length], ops.drop (rs.length + 1), ?_, by simp; omega⟩
  rw [← List.drop_eq_getElem_cons, List.take_append_drop]

/-- what a nesting error says about the reader and the input -/
theorem depth_location {s s' : St} {g : Prop} {m : Mode} (h : InvT st bytes g m s) (hg : g) (hr : (runOp op).run s = .err (.maxNestingDepthExceeded n l) s') :
    st.maxNestingDepth = some n ∧ ∃ (c : Ctx) (p : Peeked) (x : Lead) (b : UInt8) (rest : Bytes), c.Ok st ∧ c.LeadFor st p x ∧ c.frames.length = n ∧ bytes = c.bytes ++ (x.bytes ++ b :: rest) ∧
      (b = 0x5B ∨ b = 0x7B) ∧ c.depth ≤ n ∧ l = ⟨if st.trackPath then some c.path.reverse else none, lineBreaks (c.bytes ++ x.bytes), charCount (lastLine (c.bytes ++ x.bytes)), (c.bytes ++ x.bytes).length⟩ := by
  have hop : op ≠ .consumeTrailingWhitespace := by
    rintro rfl
    have hf : Fatal (runOp .consumeTrailingWhitespace : R AbsSrc _) := by
      show Fatal (unitOut consumeTrailingWhitespace : R AbsSrc _)
      unfold unitOut consumeTrailingWhitespace
      fatal
      exact fatal_ws
    cases hf _ _ _ hr
  have hw := call_any (op := op) h
  unfold Wp at hw
  rw [hr] at hw
  cases hw with
  | fatal h => cases h
  | nonfatal m' _ hm =>
    obtain ⟨h1, h2, h3⟩ := runOp_depth hr n l rfl
    have h4 : Inv st bytes _ m' (noTerm s') := hm hop
    have e1 : depthExceeded (noTerm s') = some n := h2
    have e2 : (noTerm s').peeked = some .arrayStart ∨ (noTerm s').peeked = some .objectStart := h3
    have e3 : l = loc (noTerm s') := h1
    clear h1 h2 h3 hm hr
    generalize noTerm s' = t at h4 e1 e2 e3
    cases h4 with
    | @«at» c _ h =>
      cases h with
      | n h => rcases e2 with e2 | e2 <;> cases e2
      | @p p x pos r h =>
        obtain ⟨hc, hi, rfl⟩ := h.good ⟨hg, fun _ _ => nofun⟩
        have hd : st.maxNestingDepth = some n ∧ n ≤ c.stack.length := by
          unfold depthExceeded at e1
          change (match st.maxNestingDepth with | some max => if c.stack.length ≥ max then some max else none | none => none) = some n at e1
          split at e1
          · rename_i k hk
            split at e1
            · rename_i hle
              cases e1
              exact ⟨hk, hle⟩
            · cases e1
          · cases e1
        have hb : ∃ b, tokBytes p = [b] ∧ (b = 0x5B ∨ b = 0x7B) := by
          rcases e2 with e2 | e2 <;> cases e2
          · exact ⟨0x5B, rfl, .inl rfl⟩
          · exact ⟨0x7B, rfl, .inr rfl⟩
        obtain ⟨b, hb, hb'⟩ := hb
        refine ⟨hd.1, c, p, x, b, r, hc, h.lead, ?_, by rw [hi, hb]; rfl, hb', h.depth n hd.1, ?_⟩
        · have := h.depth.stack n hd.1
          rw [frames_stack]
          omega
        · rw [e3, loc, currentPosition]
          show (⟨(if st.trackPath then some c.path else none).map List.reverse, _, _, _⟩ : Position) = _
          rw [show (stp st c (posOf (c.bytes ++ x.bytes)) (some p) r).line = (posOf (c.bytes ++ x.bytes)).line from rfl,
            show (stp st c (posOf (c.bytes ++ x.bytes)) (some p) r).column = (posOf (c.bytes ++ x.bytes)).col from rfl,
            show (stp st c (posOf (c.bytes ++ x.bytes)) (some p) r).bytePos = (posOf (c.bytes ++ x.bytes)).byte from rfl, posOf_eq]
          cases st.trackPath <;> rfl
    | active => rcases e2 with e2 | e2 <;> cases e2

/-- C18: a `MaxNestingDepthExceeded` error (of any method) reports the configured limit, the position of an opening bracket, and in front of this bracket
exactly as many arrays and objects are open as allowed -/
theorem C18_error_location (hN : 0 < N) (st : Settings) (hd : Delivers sched bytes e)
    (hr : runReader N st sched (pre ++ [op]) = rs ++ [.error (.maxNestingDepthExceeded n l)]) (hl : rs.length = pre.length)
    (hn : ∀ t l, Except.error (.unsupportedNumberValue t l) ∉ rs) :
    st.maxNestingDepth = some n ∧ ∃ (c : Ctx) (p : Peeked) (x : Lead) (b : UInt8) (rest : Bytes), c.Ok st ∧ c.LeadFor st p x ∧ c.frames.length = n ∧ bytes = c.bytes ++ (x.bytes ++ b :: rest) ∧
      (b = 0x5B ∨ b = 0x7B) ∧ l = ⟨if st.trackPath then some c.path.reverse else none, lineBreaks (c.bytes ++ x.bytes), charCount (lastLine (c.bytes ++ x.bytes)), (c.bytes ++ x.bytes).length⟩ := by
  rw [runReader_abs hN hd] at hr
  obtain ⟨s, h1, h2⟩ := steps_of_eq hr hl
  obtain ⟨m', g', h3, h4⟩ := h1.inv (invT_new bytes e)
  have h5 := first_result h2
  cases h6 : (runOp op).run s with
  | ok => rw [h6] at h5; cases h5
  | err e1 s' =>
    rw [h6] at h5
    cases h5
    obtain ⟨a1, c, p, x, b, rest, a2, a3, a4, a5, a6, _, a7⟩ := depth_location h4 (h3 hn trivial) h6
    exact ⟨a1, c, p, x, b, rest, a2, a3, a4, a5, a6, a7⟩

/-- the scanner measures the nesting depth of JSON values: an array or object is one deeper than its deepest element, other values have depth 0 -/
theorem C18_nesting_depth {cfg : Cfg} (v : Cst) (h : v.Ok cfg) : nesting v.bytes = v.depth := by
  unfold nesting scan
  rw [val_scan v h 0 0 (Nat.le_refl _)]
  simp

/-- `[1,[{`, limit 2: error at the curly bracket, position behind `[1,[`; skipping fails at the same place; with limit 3 there is no such error -/
example : runReader 4 { Settings.default with maxNestingDepth := some 2 } [.data [0x5B, 0x31, 0x2C, 0x5B, 0x7B]] ([.beginArray, .nextNumberAsStr, .beginArray] ++ [.beginObject]) =
      [.ok .unit, .ok (.text ['1']), .ok .unit] ++ [.error (.maxNestingDepthExceeded 2 ⟨some [.arrayItem 1, .arrayItem 0], 0, 4, 4⟩)] ∧
    runReader 4 { Settings.default with maxNestingDepth := some 2 } [.data [0x5B, 0x31, 0x2C, 0x5B, 0x7B]] ([] ++ [.skipValue]) =
      [] ++ [.error (.maxNestingDepthExceeded 2 ⟨some [.arrayItem 1, .arrayItem 0], 0, 4, 4⟩)] ∧
    nesting [0x5B, 0x31, 0x2C, 0x5B, 0x7B] = 3 ∧
    runReader 4 { Settings.default with maxNestingDepth := some 3 } [.data [0x5B, 0x31, 0x2C, 0x5B, 0x7B]] [.skipValue] = [.error (.syntax .incompleteDocument ⟨some [.arrayItem 1, .arrayItem 0, .objectMember ['<', '?', '>']], 0, 5, 5⟩)] := by
  decide +kernel

/-- C18: if the input (which does not have to be JSON) is not nested deeper than the limit then no method ever fails because of the nesting -/
theorem C18_within_limit (hN : 0 < N) (st : Settings) (hd : Delivers sched bytes e) (ops : List Op) (hm : st.maxNestingDepth = some n) (hb : nesting bytes ≤ n)
    (hn : ∀ t l, Except.error (.unsupportedNumberValue t l) ∉ runReader N st sched ops) : ∀ k l, Except.error (.maxNestingDepthExceeded k l) ∉ runReader N st sched ops := by
  intro k l hk
  rw [runReader_abs hN hd] at hn hk
  obtain ⟨rs, rt, hr⟩ := List.append_of_mem hk
  rw [hr] at hn
  obtain ⟨pre, op, tail, rfl, hl⟩ := runOps_split hr
  obtain ⟨s, h1, h2⟩ := steps_of_eq hr hl
  obtain ⟨m', g', h3, h4⟩ := h1.inv (invT_new bytes e)
  have h5 := first_result h2
  cases h6 : (runOp op).run s with
  | ok => rw [h6] at h5; cases h5
  | err e1 s' =>
    rw [h6] at h5
    cases h5
    obtain ⟨a1, c, p, x, b, rest, a2, a3, a4, a5, a6, _, a7⟩ := depth_location h4 (h3 (fun t l h => hn t l (List.mem_append_left _ h)) trivial) h6
    have := ctx_bracket (rest := rest) a2 a3 a6
    rw [← a5, a4] at this
    rw [hm] at a1
    cases a1
    omega

/-- C18: whatever has been consumed, also by skipping it, is not nested deeper than the limit -/
theorem C18_consumed (hN : 0 < N) (st : Settings) (hd : Delivers sched bytes e) (hm : st.maxNestingDepth = some n)
    (hr : runReader N st sched (pre ++ [.currentPosition true]) = rs ++ [.ok (.position P)]) (hl : rs.length = pre.length)
    (hn : ∀ t l, Except.error (.unsupportedNumberValue t l) ∉ rs) : nesting (bytes.take P.dataPos) ≤ n := by
  rw [runReader_abs hN hd] at hr
  obtain ⟨s, h1, h2⟩ := steps_of_eq hr hl
  obtain ⟨m', g', h3, h4⟩ := h1.inv (invT_new bytes e)
  cases position_of h2
  have hg := h3 hn trivial
  show nesting (bytes.take (noTerm s).bytePos) ≤ n
  have h5 : Inv st bytes g' m' (noTerm s) := h4
  clear h4 h2 h1 hr
  generalize noTerm s = t at h5
  have key : ∀ {c : Ctx} {x y : Bytes} {q : Lex}, c.Ok st → DeepOk st c → Goes .plain x q → bytes = (c.bytes ++ x) ++ y → nesting (bytes.take (c.bytes ++ x).length) ≤ n := by
    intro c x y q hc hdep hx hi
    rw [hi, List.take_left, ctx_goes hc hx]
    exact hdep n hm
  cases h5 with
  | @«at» c _ h =>
    cases h with
    | @n pos r h =>
      obtain ⟨hc, ⟨hi, rfl⟩ | ⟨rfl, _, t, ht, hi, rfl⟩⟩ := h.good hg
      · show nesting (bytes.take (posOf c.bytes).byte) ≤ n
        rw [posOf_byte]
        have := key (x := []) (y := r) hc h.depth .nil (by simpa using hi)
        simpa using this
      · show nesting (bytes.take (posOf bytes).byte) ≤ n
        rw [posOf_byte]
        obtain ⟨q, hq⟩ := goes_trail ht
        have := key (y := []) hc h.depth hq (by simpa using hi)
        rw [← hi] at this
        exact this
    | @p p l pos r h =>
      obtain ⟨hc, hi, rfl⟩ := h.good hg
      show nesting (bytes.take (posOf (c.bytes ++ l.bytes)).byte) ≤ n
      rw [posOf_byte]
      exact key (y := tokBytes p ++ r) hc h.depth (goes_lead h.lead) (by rw [hi]; simp)
  | @active c l pos r x y h1 h2 h3 h4 =>
    obtain ⟨hc, hl, hi, rfl, rfl, is, cs, his, hy⟩ := h4 hg
    show nesting (bytes.take (posOf (c.bytes ++ (l.bytes ++ 0x22 :: y))).byte) ≤ n
    rw [posOf_byte]
    refine key (q := .string) (y := r) hc h2 ((goes_lead hl).append (.cons (q' := .string) (fun _ _ => rfl) ?_)) (by rw [hi]; simp)
    rw [hy]
    exact goes_items his

/-- C18: if the next value is an array or object, and as many arrays and objects are open as allowed, then it can be neither started nor skipped -/
theorem C18_limit_reached (hN : 0 < N) (st : Settings) (sched : List ReadEvent) (m : Mode) (v : ValueType)
    (hm : Mode.init.after pre (runReader N st sched pre) = some m) (hmax : st.maxNestingDepth = some m.frames.length)
    (hp : runReader N st sched (pre ++ [.peek]) = runReader N st sched pre ++ [.ok (.type v)])
    (hop : (v = .array ∧ op = .beginArray) ∨ (v = .object ∧ op = .beginObject) ∨ ((v = .array ∨ v = .object) ∧ op = .skipValue)) :
    ∃ l, runReader N st sched (pre ++ [op]) = runReader N st sched pre ++ [.error (.maxNestingDepthExceeded m.frames.length l)] := by
  simp only [runReader_eq_runAbs hN] at *
  obtain ⟨s, g, _, hI, hs⟩ := runOps_after pre (invT_new _ _) hm
  have hs' : ∀ tail, runAbs st (BufSrc.schedBytes sched) (BufSrc.schedError sched) (pre ++ tail) = runAbs st (BufSrc.schedBytes sched) (BufSrc.schedError sched) pre ++ runOps tail s := hs
  rw [hs'] at hp
  rw [hs']
  have hp := first_result (List.append_cancel_left hp)
  cases hr : (runOp .peek).run s with
  | err e s1 => rw [hr] at hp; cases hp
  | ok o s1 =>
    rw [hr] at hp
    cases hp
    have hw := call_any (op := .peek) hI
    unfold Wp at hw
    rw [hr] at hw
    have hI1 : InvT st (BufSrc.schedBytes sched) g m s1 := hw.2 nofun
    have hdep : depthExceeded s1 = some m.frames.length := by
      have key : ∀ t : St, Inv st (BufSrc.schedBytes sched) g m t → depthExceeded t = some m.frames.length := by
        intro t h
        have : ∀ c : Ctx, c.mode.frames.length = c.stack.length := frames_stack
        cases h with
        | @«at» c _ h =>
          rw [this] at hmax ⊢
          cases h <;> (unfold depthExceeded stp; dsimp only; rw [hmax]; simp)
        | @active c _ _ _ _ _ _ h =>
          have : ({ c.mode with str := true } : Mode).frames.length = c.stack.length := this c
          rw [this] at hmax ⊢
          unfold depthExceeded active stp; dsimp only; rw [hmax]; simp
      exact key (noTerm s1) hI1
    obtain ⟨v', s2, h1, h2⟩ := M.bind_eq_ok.1 (show ((do let t ← Reader.peek; pure (.type t) : R AbsSrc Out)).run s = .ok (.type v) s1 from hr)
    cases h2
    obtain ⟨_, hpk⟩ := peek_cases.1 h1
    have hemn : s.expectsMemberName = false := by
      cases he : s.expectsMemberName with
      | false => rfl
      | true => unfold Reader.peek at h1; rw [run_get, he, if_pos rfl] at h1; cases h1
    -- the peek
    have hpi : ∀ t : St, t.expectsMemberName = false → Reader.peek.run t = .ok v s1 → ∃ p, Reader.peekInternal.run t = .ok p s1 ∧ (Reader.mapPeeked p : R AbsSrc _).run s1 = .ok v s1 := by
      intro t ht h
      unfold Reader.peek at h
      rw [run_get, ht, if_neg (by decide)] at h
      obtain ⟨p, s3, h3, h4⟩ := M.bind_eq_ok.1 h
      have : s3 = s1 := by cases p <;> first | (cases h4; rfl) | cases h4
      subst this
      exact ⟨p, h3, h4⟩
    have hstart : ∀ (t : St) (k : StackValue), t.expectsMemberName = false → Reader.peek.run t = .ok v s1 → (Reader.onContainerStart v k).run t = .err (.maxNestingDepthExceeded m.frames.length (loc s1)) s1 := by
      intro t k ht h
      obtain ⟨p, h3, h4⟩ := hpi t ht h
      refine M.bind_err ?_
      unfold Reader.startExpectedValueType
      rw [run_get, ht, if_neg (by decide), M.bind_ok h3, M.bind_ok h4, run_get, if_pos (by cases v <;> rfl), if_pos rfl, hdep]
      rfl
    have hbegin : ∀ t : St, t.expectsMemberName = false → Reader.peek.run t = .ok v s1 → (v = .array → Reader.beginArray.run t = .err (.maxNestingDepthExceeded m.frames.length (loc s1)) s1) ∧
        (v = .object → Reader.beginObject.run t = .err (.maxNestingDepthExceeded m.frames.length (loc s1)) s1) := by
      intro t ht h
      have := hstart t
      refine ⟨?_, ?_⟩ <;> (rintro rfl; exact M.bind_err (this _ ht h))
    refine ⟨loc s1, ?_⟩
    rw [runOps_one]
    have hfin : (runOp op).run s = .err (.maxNestingDepthExceeded m.frames.length (loc s1)) s1 := by
      rcases hop with ⟨hv, rfl⟩ | ⟨hv, rfl⟩ | ⟨hv, rfl⟩
      · exact M.bind_err ((hbegin s hemn h1).1 hv)
      · exact M.bind_err ((hbegin s hemn h1).2 hv)
      · refine M.bind_err ?_
        unfold Reader.skipValue
        rw [run_get, hemn, if_neg (by decide)]
        show (Reader.skipValueLoop (_ + 1 + 1) 0).run s = _
        unfold Reader.skipValueLoop Reader.atContainerEnd
        rw [if_neg (by decide), M.bind_ok (a := false) (s' := s) rfl]
        refine M.bind_err ?_
        rw [if_neg (by decide)]
        have hsn : (Reader.skipNameIfExpected : R AbsSrc Unit).run s = .ok () s := by
          unfold Reader.skipNameIfExpected
          rw [run_get, hemn, if_neg (by decide)]
          rfl
        rw [M.bind_ok hsn]
        refine M.bind_err ?_
        unfold Reader.skipValueStart
        rw [M.bind_ok h1]
        have h1' : Reader.peek.run s1 = .ok v s1 := by
          obtain ⟨p, h3, h4⟩ := hpi s hemn h1
          unfold Reader.peek
          rw [run_get, hpk.emn.trans hemn, if_neg (by decide)]
          refine (M.bind_ok (a := p) ?_).trans h4
          unfold Reader.peekInternal at h3 ⊢
          rw [M.bind_ok hpk.run] at h3
          rw [M.bind_ok hpk.run']
          exact h3
        have := hbegin s1 (hpk.emn.trans hemn) h1'
        rcases hv with rfl | rfl
        · exact M.bind_err (this.1 rfl)
        · exact M.bind_err (this.2 rfl)
    rw [hfin]

/-- limit 1, `[[2]]`: behind the first bracket the next value is an array -/
example : Mode.init.after [.beginArray] (runReader 4 { Settings.default with maxNestingDepth := some 1 } [.data [0x5B, 0x5B, 0x32, 0x5D, 0x5D]] [.beginArray]) = some ⟨[.array], false, false⟩ ∧
    runReader 4 { Settings.default with maxNestingDepth := some 1 } [.data [0x5B, 0x5B, 0x32, 0x5D, 0x5D]] ([.beginArray] ++ [.peek]) =
      runReader 4 { Settings.default with maxNestingDepth := some 1 } [.data [0x5B, 0x5B, 0x32, 0x5D, 0x5D]] [.beginArray] ++ [.ok (.type .array)] ∧
    runReader 4 { Settings.default with maxNestingDepth := some 1 } [.data [0x5B, 0x5B, 0x32, 0x5D, 0x5D]] ([.beginArray] ++ [.skipValue]) =
      [.ok .unit] ++ [.error (.maxNestingDepthExceeded 1 ⟨some [.arrayItem 0], 0, 1, 1⟩)] := by
  decide +kernel

/-- limit 2, `[[2],{`: the position behind the skipped array -/
example : runReader 4 { Settings.default with maxNestingDepth := some 2 } [.data [0x5B, 0x5B, 0x32, 0x5D, 0x2C, 0x7B]] ([.beginArray, .skipValue] ++ [.currentPosition true]) =
      [.ok .unit, .ok .unit] ++ [.ok (.position ⟨some [.arrayItem 1], 0, 4, 4⟩)] ∧ nesting ([0x5B, 0x5B, 0x32, 0x5D, 0x2C, 0x7B].take 4) = 2 := by
  decide +kernel

end Verif.Props

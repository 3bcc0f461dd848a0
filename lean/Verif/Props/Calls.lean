import Verif.Proofs.Abs.Calls
import Verif.Proofs.Abs.Position
import Verif.Props.Chunking
import Verif.Spec.Partial
/-!
# Properties of arbitrary sequences of reader calls

`runReader N settings sched ops` are the results of the method calls `ops` on a new reader with buffer size `N`, where the underlying `Read` behaves
as described by `sched`.
-/

namespace Verif.Props
open Reader Usage Json Abs Position

variable {N : Nat} {st : Settings} {sched : List ReadEvent} {bytes : Bytes} {e : Option Nat} {ops : List Op}

theorem runReader_abs (hN : 0 < N) (hd : Delivers sched bytes e) (ops : List Op) : runReader N st sched ops = runAbs st bytes e ops := by
  rw [runReader_eq_runAbs hN, (delivers_sched hd).1, (delivers_sched hd).2]

/-! ## C02, C29 -/

/-- C02: internal panics (failed assertions, out of bounds accesses, `unwrap` of `None`, `unreachable!`, invalid UTF-8 given to
`from_utf8_unchecked`) never occur. Missing: calls after a syntax or IO error, for which the documentation does not specify the behavior
(`runReader` ends at the first such error). -/
theorem C02_no_internal_panic_partial (hN : 0 < N) (st : Settings) (sched : List ReadEvent) (ops : List Op) (p : InternalPanic) :
    Except.error (.panic (.internal p)) ∉ runReader N st sched ops := by
  rw [runReader_eq_runAbs hN]
  exact fun h => runOps_notBad ops (invT_new _ _) _ h (.inl ⟨p, rfl⟩)

/-- the panics exist in the model: without the check of the first byte the UTF-8 functions do panic -/
example : (ByteSource.getStr (σ := AbsSrc)).run ⟨[], none, [0xFF]⟩ = .err (.panic (.internal .invalidUtf8)) ⟨[], none, []⟩ := by decide +kernel

/-- C29: loops end. The loops of the model have as many steps available as there are bytes left in the input (plus two); they never need more. -/
theorem C29_loops_end (hN : 0 < N) (st : Settings) (sched : List ReadEvent) (ops : List Op) :
    Except.error .outOfFuel ∉ runReader N st sched ops := by
  rw [runReader_eq_runAbs hN]
  exact fun h => runOps_notBad ops (invT_new _ _) _ h (.inr rfl)

/-! ## C28 -/

/-- C28: a sequence of calls which respects the documented usage rules never panics, whatever the input -/
theorem C28_no_panic (hN : 0 < N) (st : Settings) (sched : List ReadEvent) (ops : List Op)
    (h : Mode.init.abides st.allowMultipleTopLevel ops (runReader N st sched ops) = true) (p : Panic) :
    Except.error (.panic p) ∉ runReader N st sched ops := by
  rw [runReader_eq_runAbs hN] at *
  exact fun hm => runOps_abides ops (invT_new _ _) h _ hm p rfl

/-- reading `[1]` respects the rules; also for malformed data -/
example : Mode.init.abides false [.beginArray, .hasNext, .nextNumberAsStr, .endArray, .consumeTrailingWhitespace]
    (runReader 4 Settings.default [.data [0x5B, 0x31, 0x5D]] [.beginArray, .hasNext, .nextNumberAsStr, .endArray, .consumeTrailingWhitespace]) = true ∧
    Mode.init.abides false [.beginArray, .hasNext] (runReader 4 Settings.default [.data [0x5B, 0x31, 0x5D]] [.beginArray, .hasNext]) = true ∧
    Mode.init.abides false [.beginArray, .nextName] (runReader 4 Settings.default [.data [0x5B, 0x31, 0x5D]] [.beginArray, .nextName]) = false := by
  decide +kernel

theorem runOps_one {σ : Type} [ByteSource σ] (op : Op) (s : RState σ) :
    runOps [op] s = [match (runOp op).run s with | .ok o _ => .ok o | .err e _ => .error e] := by
  unfold runOps
  cases (runOp op).run s <;> simp [runOps]

/-- C28: the first call which violates the rules panics, whatever the input is. The mode is the one determined by the previous calls and their results. -/
theorem C28_misuse_panics (hN : 0 < N) (st : Settings) (sched : List ReadEvent) (pre : List Op) (op : Op) (m : Mode)
    (hm : Mode.init.after pre (runReader N st sched pre) = some m) (ha : m.allowed st.allowMultipleTopLevel op = false)
    (hop : ∀ path, op ≠ .seekBack path) :
    ∃ p, runReader N st sched (pre ++ [op]) = runReader N st sched pre ++ [.error (.panic (.usage p))] := by
  rw [runReader_eq_runAbs hN] at *
  rw [runReader_eq_runAbs hN]
  obtain ⟨s', g', _, h2, h3⟩ := runOps_after pre (invT_new _ _) hm
  have hr : runAbs st (BufSrc.schedBytes sched) (BufSrc.schedError sched) (pre ++ [op]) = _ ++ _ := h3 [op]
  rw [hr, runOps_one]
  obtain ⟨p, t, hp⟩ := misuse_panics h2 ha hop
  rw [hp]
  exact ⟨p, rfl⟩

/-- `end_array` and reading a second top-level value after `[]` was read -/
example : Mode.init.after [.beginArray, .endArray] (runReader 4 Settings.default [.data [0x5B, 0x5D]] [.beginArray, .endArray]) = some ⟨[], true, false⟩ ∧
    Mode.allowed false ⟨[], true, false⟩ .endArray = false ∧ Mode.allowed false ⟨[], true, false⟩ .nextNull = false := by
  decide +kernel

/-- C28: `seek_back` with a path which does not belong to the current position never succeeds. Missing for the full claim: it may fail with a
syntax error or, if another value has to be skipped, with another error, instead of a panic. -/
theorem C28_seek_back_misuse_partial (hN : 0 < N) (st : Settings) (sched : List ReadEvent) (pre : List Op) (path : List PathPiece) (m : Mode)
    (hm : Mode.init.after pre (runReader N st sched pre) = some m) (ha : m.allowed st.allowMultipleTopLevel (.seekBack path) = false) :
    ∃ e, runReader N st sched (pre ++ [.seekBack path]) = runReader N st sched pre ++ [.error e] := by
  rw [runReader_eq_runAbs hN] at *
  rw [runReader_eq_runAbs hN]
  obtain ⟨s', g', _, h2, h3⟩ := runOps_after pre (invT_new _ _) hm
  have hr : runAbs st (BufSrc.schedBytes sched) (BufSrc.schedError sched) (pre ++ [.seekBack path]) = _ ++ _ := h3 [.seekBack path]
  rw [hr, runOps_one]
  have hw := call_any (op := .seekBack path) h2
  unfold Wp at hw
  cases hrun : (runOp (.seekBack path)).run s' with
  | ok o t => rw [hrun] at hw; rw [hw.1] at ha; cases ha
  | err e t => exact ⟨e, rfl⟩

/-- `seek_back` of an array index while no array is open; and a case where a syntax error is reported instead of a panic -/
example : Mode.init.after [] (runReader 4 Settings.default [.data [0x5B, 0x5D]] []) = some .init ∧
    Mode.allowed false .init (.seekBack [.arrayItem 0]) = false ∧
    runReader 4 Settings.default [.data [0x7B, 0x2C]] [.beginObject, .seekBack [.arrayItem 0]] =
      [.ok .unit, .error (.syntax .unexpectedComma ⟨some [.objectMember pathPlaceholder], 0, 1, 1⟩)] := by
  decide +kernel

/-- C28: whether a call panics is determined by the previous calls and their results -/
theorem C28_panics_iff (hN : 0 < N) (st : Settings) (sched : List ReadEvent) (pre : List Op) (op : Op) (m : Mode)
    (hm : Mode.init.after pre (runReader N st sched pre) = some m) (hop : ∀ path, op ≠ .seekBack path) :
    (∃ p, runReader N st sched (pre ++ [op]) = runReader N st sched pre ++ [.error (.panic p)]) ↔ m.allowed st.allowMultipleTopLevel op = false := by
  constructor
  · intro h
    rw [runReader_eq_runAbs hN] at *
    rw [runReader_eq_runAbs hN] at h
    obtain ⟨s', g', _, h2, h3⟩ := runOps_after pre (invT_new _ _) hm
    have hr : runAbs st (BufSrc.schedBytes sched) (BufSrc.schedError sched) (pre ++ [op]) = _ ++ _ := h3 [op]
    obtain ⟨p, hp⟩ := h
    have := List.append_cancel_left (hr.symm.trans hp)
    rw [runOps_one] at this
    have hw := call_any (op := op) h2
    unfold Wp at hw
    cases hrun : (runOp op).run s' with
    | ok o t => rw [hrun] at this; cases this
    | err e t =>
      rw [hrun] at this hw
      cases this
      cases hw with
      | panic h => exact h
      | fatal h hp => exact absurd rfl (hp _)
      | nonfatal m' h => exact Bool.noConfusion h
  · intro ha
    obtain ⟨p, hp⟩ := C28_misuse_panics hN st sched pre op m hm ha hop
    exact ⟨_, hp⟩

/-! ## C11, acceptance -/

theorem doc_of_top {d : List (Ws × Cst)} {t : TrailWs} (hd : d ≠ []) (hm : st.allowMultipleTopLevel = false) (h : (Ctx.top d).Ok st) (ht : t.Ok st.allowComments) :
    ∃ v, IsDoc (cfgOf st) ((Ctx.top d).bytes ++ t.bytes) v := by
  match d, hd with
  | [(w, v)], _ =>
    refine ⟨_, ⟨w, v, t⟩, ⟨h.1.1, h.1.2.2.1, ht⟩, ?_, rfl⟩
    simp [Doc.bytes, Ctx.bytes, topBytes]
  | _ :: _ :: _, _ =>
    rcases h.2 with h | h
    · simp at h
    · rw [hm] at h; cases h

/-- C11, acceptance: if, after any sequence of calls, `consume_trailing_whitespace` returns successfully then the input is a JSON document. -/
theorem C11_accepted_is_json (hN : 0 < N) (st : Settings) (hmulti : st.allowMultipleTopLevel = false) (hd : Delivers sched bytes e) (pre : List Op)
    (hn : ∀ t l, Except.error (.unsupportedNumberValue t l) ∉ runReader N st sched pre)
    (h : runReader N st sched (pre ++ [.consumeTrailingWhitespace]) = runReader N st sched pre ++ [.ok .unit])
    (hl : (runReader N st sched pre).length = pre.length) :
    ∃ v, IsDoc ⟨st.allowComments, st.allowTrailingComma⟩ bytes v := by
  simp only [runReader_abs hN hd] at *
  obtain ⟨s', g', m, h1, h2, h3⟩ := runOps_reach (op := .consumeTrailingWhitespace) pre (invT_new bytes e (st := st)) (by
    show (runAbs st bytes e (pre ++ [.consumeTrailingWhitespace])).length = _
    rw [h, List.length_append, hl]; rfl)
  have hg : g' := h1 (fun r hr t l he => hn t l (he ▸ hr)) trivial
  have hr : runAbs st bytes e (pre ++ [.consumeTrailingWhitespace]) = _ ++ _ := h3 [.consumeTrailingWhitespace]
  have h4 := List.append_cancel_left (h.symm.trans hr)
  rw [runOps_one] at h4
  have hw := trailing_wp h2
  unfold Wp at hw
  cases hrun : (runOp .consumeTrailingWhitespace).run s' with
  | err e t => rw [hrun] at h4; cases h4
  | ok o t =>
    rw [hrun] at hw
    obtain ⟨_, ha, c, t, rfl, hat, ht, hrest, hok⟩ := hw
    simp only [Mode.allowed, Bool.and_eq_true] at ha
    obtain ⟨⟨_, hf⟩, hs⟩ := ha
    obtain ⟨d, rfl⟩ := top_of_frames hf
    have hd : d ≠ [] := by simpa [Ctx.mode, Ctx.root] using hs
    have hp : s'.peeked = none := by
      change (noTerm s').peeked = none
      generalize noTerm s' = t at hat ⊢
      cases hat with
      | n => rfl
      | @p p l pos r hp =>
        have := hp.lead
        cases l with
        | ws w =>
          rcases this.2.2.1 with h | h
          · exact absurd h hd
          · rw [hmulti] at h; cases h
        | sep => exact this.elim
        | colon => exact this.elim
    obtain ⟨hcok, t, ht, hi⟩ := hok hg hp
    rw [hi]
    exact doc_of_top hd hmulti hcok ht

/-- skipping a document; `{"a": tru}` and `[1]x` are not accepted -/
example : runReader 4 Settings.default [.data [0x5B, 0x31, 0x5D, 0x20]] [.skipValue, .consumeTrailingWhitespace] = [.ok .unit] ++ [.ok .unit] ∧
    runReader 4 Settings.default [.data [0x5B, 0x31, 0x5D, 0x78]] [.skipValue, .consumeTrailingWhitespace] =
      [.ok .unit, .error (.syntax .trailingData ⟨some [], 0, 3, 3⟩)] := by
  decide +kernel

/-! ## C18 -/

/-- C18: there are never more than `max_nesting_depth` open arrays and objects -/
theorem C18_depth_bounded (hN : 0 < N) (st : Settings) (sched : List ReadEvent) (ops : List Op) (m : Mode) (n : Nat)
    (hm : Mode.init.after ops (runReader N st sched ops) = some m) (hn : st.maxNestingDepth = some n) : m.frames.length ≤ n := by
  rw [runReader_eq_runAbs hN] at hm
  obtain ⟨s', g', _, h2, _⟩ := runOps_after ops (invT_new _ _) hm
  have key : ∀ c : Ctx, c.frames.length = c.stack.length := by
    intro c
    induction c <;> simp [Ctx.frames, Ctx.stack, *]
  have : ∀ s', Inv st (BufSrc.schedBytes sched) g' m s' → m.frames.length ≤ n := by
    intro s' h
    cases h with
    | @«at» c _ h =>
      show c.frames.length ≤ n
      rw [key]
      cases h with
      | n h => exact h.depth.stack n hn
      | p h => exact h.depth.stack n hn
    | @active c _ _ _ _ _ _ h =>
      show c.frames.length ≤ n
      rw [key]
      exact h.stack n hn
  exact this _ h2

/-- two open arrays with limit 2; the third one is rejected -/
example : Mode.init.after [.beginArray, .beginArray] (runReader 4 { Settings.default with maxNestingDepth := some 2 } [.data [0x5B, 0x5B, 0x5B]]
    [.beginArray, .beginArray]) = some ⟨[.array, .array], false, false⟩ ∧
    runReader 4 { Settings.default with maxNestingDepth := some 2 } [.data [0x5B, 0x5B, 0x5B]] [.beginArray, .beginArray, .beginArray] =
      [.ok .unit, .ok .unit, .error (.maxNestingDepthExceeded 2 ⟨some [.arrayItem 0, .arrayItem 0], 0, 2, 2⟩)] := by
  decide +kernel

/-! ## C19, C20 -/

/-- C19, C20: after any calls (no errors except for those after which the reader can be used; no unsupported numbers) the reported position
describes a prefix `c.bytes ++ x` of the input, where `c.bytes` is the consumed part of the document with exactly the arrays and objects open which the
calls have opened, and `x` is part of what has been skipped in front of the next token by peeking at it (or the beginning of the string which is being read by a string reader).
The line is the number of line breaks, the column the number of characters in the last line and the data position the number of bytes of this prefix;
the path is the path of the position behind `c`. -/
theorem C19_C20_position (hN : 0 < N) (st : Settings) (hd : Delivers sched bytes e) (pre : List Op) (m : Mode) (includePath : Bool)
    (hm : Mode.init.after pre (runReader N st sched pre) = some m)
    (hn : ∀ t l, Except.error (.unsupportedNumberValue t l) ∉ runReader N st sched pre) :
    ∃ (c : Ctx) (x y : Bytes), c.Ok st ∧ bytes = c.bytes ++ (x ++ y) ∧ c.mode = { m with str := false } ∧
      (if m.str then ∃ l is cs, c.LeadFor st .stringStart l ∧ ItemsAre is cs ∧ x = l.bytes ++ 0x22 :: is.flatMap StrItem.bytes
       else x = [] ∨ (∃ p l, c.LeadFor st p l ∧ x = l.bytes) ∨ (y = [] ∧ ∃ t : TrailWs, t.Ok st.allowComments ∧ x = t.bytes)) ∧
      runReader N st sched (pre ++ [.currentPosition includePath]) = runReader N st sched pre ++ [.ok (.position
        { path := if includePath && st.trackPath then some c.path.reverse else none
          line := lineBreaks (c.bytes ++ x)
          column := charCount (lastLine (c.bytes ++ x))
          dataPos := (c.bytes ++ x).length })] := by
  simp only [runReader_abs hN hd] at *
  obtain ⟨s', g', h1, h2, h3⟩ := runOps_after pre (invT_new bytes e (st := st)) hm
  have hg : g' := h1 (fun r hr t l he => hn t l (he ▸ hr)) trivial
  have hr : runAbs st bytes e (pre ++ [.currentPosition includePath]) = _ ++ _ := h3 [.currentPosition includePath]
  rw [hr, runOps_one]
  change ∃ (c : Ctx) (x y : Bytes), c.Ok st ∧ bytes = c.bytes ++ (x ++ y) ∧ c.mode = { m with str := false } ∧ _ ∧ _ ++ [Except.ok (Out.position (currentPosition s' includePath))] = _
  rw [← noTerm_position]
  have hpath : ∀ c : Ctx, (if includePath then (if st.trackPath then some c.path else none).map List.reverse else none) = (if includePath && st.trackPath then some c.path.reverse else none) := by
    intro c; cases includePath <;> cases st.trackPath <;> rfl
  have hp : ∀ {c pos pk r}, currentPosition (stp st c pos pk r) includePath = ⟨if includePath && st.trackPath then some c.path.reverse else none, pos.line, pos.col, pos.byte⟩ := by
    intro c pos pk r
    unfold currentPosition stp
    rw [← hpath]
  have h2' : Inv st bytes g' m (noTerm s') := h2
  clear hm hr h3 h2
  generalize noTerm s' = t at h2'
  cases h2' with
  | @«at» c _ h =>
    cases h with
    | @n pos r h =>
      obtain ⟨hc, ⟨rfl, rfl⟩ | ⟨rfl, hd, t, ht, hi, rfl⟩⟩ := h.good hg
      · refine ⟨c, [], r, hc, rfl, rfl, .inl rfl, ?_⟩
        rw [hp, posOf_eq, List.append_nil]; rfl
      · refine ⟨c, t.bytes, [], hc, by rw [List.append_nil]; exact hi, rfl, .inr (.inr ⟨rfl, t, ht, rfl⟩), ?_⟩
        rw [hp, ← hi, posOf_eq]; rfl
    | @p p l pos r h =>
      obtain ⟨hc, hi, rfl⟩ := h.good hg
      refine ⟨c, l.bytes, _, hc, hi, rfl, .inr (.inl ⟨p, l, h.lead, rfl⟩), ?_⟩
      rw [hp, posOf_eq]; rfl
  | @active c l pos r x y h1 h2 h3 h4 =>
    obtain ⟨hc, hl, hi, rfl, rfl, is, cs, his, hy⟩ := h4 hg
    refine ⟨c, l.bytes ++ 0x22 :: y, r, hc, ?_, rfl, ?_, ?_⟩
    · rw [hi]; simp
    · rw [if_pos rfl]; exact ⟨l, is, cs, hl, his, by rw [hy]⟩
    · unfold active
      change _ ++ [Except.ok (Out.position (currentPosition (stp st c _ none r) includePath))] = _
      rw [hp, posOf_eq]; rfl

/-- position behind the first line of `[1,\n{"a"` -/
example : runReader 4 Settings.default [.data [0x5B, 0x31, 0x2C, 0x0A, 0x7B, 0x22, 0x61, 0x22]] [.beginArray, .nextNumberAsStr, .beginObject, .nextName, .currentPosition true] =
    [.ok .unit, .ok (.text ['1']), .ok .unit, .ok (.text ['a'])] ++ [.ok (.position ⟨some [.arrayItem 1, .objectMember ['a']], 1, 4, 8⟩)] ∧
    Mode.init.after [.beginArray, .nextNumberAsStr, .beginObject, .nextName] [.ok .unit, .ok (.text ['1']), .ok .unit, .ok (.text ['a'])] = some ⟨[.objectValue, .array], false, false⟩ := by
  decide +kernel

end Verif.Props

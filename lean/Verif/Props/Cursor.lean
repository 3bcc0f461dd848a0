import Verif.Proofs.Abs.ReadAt
import Verif.Proofs.Cursor
import Verif.Props.Calls
import Verif.Props.Documents
/-!
# Moving through valid documents

`Valid st bytes vs`: the bytes are a document of the grammar which denotes the values `vs` (at most one, unless multiple top-level values are
enabled). `Cursor.reach st pre (Cur.init vs) = some k`: according to the specification (`Verif/Spec/Cursor.lean`) the calls `pre` lead to the place `k`
in the values. The limits (nesting depth, numbers) are part of the specification of the calls.
-/

namespace Verif.Props
open Reader Json Prog Cursor
open Abs hiding kindOf tooDeep

variable {N : Nat} {st : Settings} {sched : List ReadEvent} {bytes : Bytes} {vs : List JVal} {pre : List Op} {k : Cur}

/-- the document is valid for the settings -/
abbrev Valid (st : Settings) (bytes : Bytes) (vs : List JVal) : Prop := IsTops ⟨st.allowComments, st.allowTrailingComma⟩ st.allowMultipleTopLevel bytes vs

theorem valid_of_doc {v : JVal} (h : IsDoc ⟨st.allowComments, st.allowTrailingComma⟩ bytes v) : Valid st bytes [v] := by
  obtain ⟨d, ⟨h1, h2, h3⟩, rfl, rfl⟩ := h
  exact ⟨.inr (Nat.le_refl _), .cons d.ws d.value (.nil d.tail), ⟨h1, nofun, h2, h3⟩, rfl, rfl⟩

/-! ## Example: the document `[1, {"a": "b"}]` -/

def exBytes : Bytes := [0x5B, 0x31, 0x2C, 0x20, 0x7B, 0x22, 0x61, 0x22, 0x3A, 0x20, 0x22, 0x62, 0x22, 0x7D, 0x5D]
def exValue : JVal := .arr [.num ['1'], .obj [(['a'], .str ['b'])]]
def exSched : List ReadEvent := exBytes.map fun b => .data [b]

theorem ex_delivers : Delivers exSched exBytes none := by
  unfold exSched
  induction exBytes with
  | nil => exact .done
  | cons b bs ih => exact .data b [] ih

theorem ex_valid : Valid Settings.default exBytes [exValue] := by
  have h : exec 4 Settings.default exSched (readDoc 40) = .ok exValue := by decide +kernel
  obtain ⟨d, h1, h2, h3, _⟩ := (C11_C12_read_document (by decide) _ ex_delivers (by decide) _).1 h
  exact valid_of_doc ⟨d, h1, h2, h3⟩

/-! ## The reader follows the cursor -/

/-- the states reached by the calls -/
theorem reached (hN : 0 < N) (hd : Delivers sched bytes none) (hv : Valid st bytes vs) (hr : reach st pre (.init vs) = some k) :
    ∃ T s, RepC st T k s ∧ T.bytes = bytes ∧ (∃ g m, InvT st bytes g m s) ∧ (∀ tail, runReader N st sched (pre ++ tail) = runReader N st sched pre ++ runOps tail s) ∧
      (runReader N st sched pre).length = pre.length ∧
      ∀ (α : Type) (p : Prog α), exec N st sched (after pre p) = match p.toR.run s with | .ok a _ => .ok a | .err e _ => .error e := by
  obtain ⟨hm, t, hok, rfl, rfl⟩ := hv
  obtain ⟨s, h1, h2, h3, h4, _, _, h5⟩ := reach_state pre (repC_new (st := st) hok hm) ⟨_, _, invT_new t.bytes none⟩ hr
  refine ⟨t, s, h1, rfl, h2, ?_, ?_, ?_⟩
  · intro tail
    rw [runReader_abs hN hd, runReader_abs hN hd]
    exact h4 tail
  · rw [runReader_abs hN hd]
    exact h3
  · intro α p
    rw [exec_abs hN hd]
    unfold execAbs
    rw [h5]
    cases p.toR.run s <;> rfl

/-- The specification describes what the reader does: as long as calls are specified, their results are the specified ones -/
theorem follows_cursor (hN : 0 < N) (hd : Delivers sched bytes none) (hv : Valid st bytes vs) (ops : List Op) :
    Cursor.run st ops (.init vs) <+: (runReader N st sched ops).map view := by
  obtain ⟨hm, t, hok, rfl, rfl⟩ := hv
  rw [runReader_abs hN hd]
  exact run_prefix ops (repC_new (st := st) hok hm)

example : Cursor.run Settings.default [.beginArray, .nextBool, .skipValue, .hasNext, .seekTo [.objectMember ['a']], .nextStr, .seekBack [.objectMember ['a']], .currentPosition true, .endArray] (.init [exValue]) =
    [.ok .unit, .error (.type .boolean .number), .ok .unit, .ok (.bool true), .ok .unit, .ok (.text ['b']), .ok .unit, .ok (.path (some [.arrayItem 2])), .ok .unit] := by decide +kernel

/-- The place is a place in the document: in each open array and object some elements have been consumed and the others are still there -/
theorem cursor_in_document (hr : reach st pre (.init vs) = some k) : k.In vs := reach_in Cur.In.init hr

/-- The result of the next call is the specified one -/
theorem next_result (hN : 0 < N) (hd : Delivers sched bytes none) (hv : Valid st bytes vs) (hr : reach st pre (.init vs) = some k) (op : Op) :
    match Cursor.step st k op with
    | .ok v _ => ∃ o, runReader N st sched (pre ++ [op]) = runReader N st sched pre ++ [.ok o] ∧ valOf o = v
    | .err e _ => ∃ x, runReader N st sched (pre ++ [op]) = runReader N st sched pre ++ [.error x] ∧ kindOf x = e
    | .stop e => ∃ x, runReader N st sched (pre ++ [op]) = runReader N st sched pre ++ [.error x] ∧ kindOf x = e
    | .misuse => True := by
  obtain ⟨T, s, h1, _, _, h2, _, _⟩ := reached hN hd hv hr
  have h3 := run_prefix [op] h1
  unfold Cursor.run at h3
  rw [h2]
  rw [runOps_one] at h3 ⊢
  cases hs : Cursor.step st k op with
  | misuse => trivial
  | ok v c =>
    rw [hs] at h3
    simp only [Cursor.run, ite_self, List.map_cons, List.map_nil] at h3
    have h4 := List.head_eq_of_cons_eq (List.IsPrefix.eq_of_length h3 rfl)
    revert h4
    cases (runOp op).run s with
    | ok o t => intro h4; injection h4 with h4; exact ⟨o, rfl, h4.symm⟩
    | err e t => intro h4; cases h4
  | err e c =>
    rw [hs] at h3
    simp only [Cursor.run, List.map_cons, List.map_nil] at h3
    have h4 := List.head_eq_of_cons_eq (List.IsPrefix.eq_of_length h3 rfl)
    revert h4
    cases (runOp op).run s with
    | ok o t => intro h4; cases h4
    | err x t => intro h4; injection h4 with h4; exact ⟨x, rfl, h4.symm⟩
  | stop e =>
    rw [hs] at h3
    simp only [List.map_cons, List.map_nil] at h3
    have h4 := List.head_eq_of_cons_eq (List.IsPrefix.eq_of_length h3 rfl)
    revert h4
    cases (runOp op).run s with
    | ok o t => intro h4; cases h4
    | err x t => intro h4; injection h4 with h4; exact ⟨x, rfl, h4.symm⟩

theorem next_ok (hN : 0 < N) (hd : Delivers sched bytes none) (hv : Valid st bytes vs) (hr : reach st pre (.init vs) = some k) {op : Op} {v : Val} {c : Cur}
    (hs : Cursor.step st k op = .ok v c) : ∃ o, runReader N st sched (pre ++ [op]) = runReader N st sched pre ++ [.ok o] ∧ valOf o = v := by
  have h := next_result hN hd hv hr op
  rwa [hs] at h

theorem reach_ok {op : Op} {v : Val} {c : Cur} (hr : reach st pre (.init vs) = some k) (hs : Cursor.step st k op = .ok v c) (hop : op ≠ .consumeTrailingWhitespace) :
    reach st (pre ++ [op]) (.init vs) = some c := by
  rw [reach_append _ hr, reach, hs]
  dsimp only
  rw [if_neg hop]
  rfl

theorem unit_of {o : Out} (h : valOf o = .unit) : o = .unit := by cases o <;> first | rfl | cases h
theorem bool_of {o : Out} {b : Bool} (h : valOf o = .bool b) : o = .bool b := by cases o <;> cases h <;> rfl
theorem type_of {o : Out} {t : ValueType} (h : valOf o = .type t) : o = .type t := by cases o <;> cases h <;> rfl
theorem text_of {o : Out} {t : Text} (h : valOf o = .text t) : o = .text t := by cases o <;> cases h <;> rfl

/-- The place determines what happens next: two sequences of calls which lead to the same place in the document are followed by the same results (for
any further calls; if the first one is `current_position`, `skip_to_top_level`, `seek_back` or `consume_trailing_whitespace` then the position may
differ because of whitespace skipped by a previous `peek` or `has_next`). -/
theorem same_place (hN : 0 < N) (hd : Delivers sched bytes none) (hv : Valid st bytes vs) {pre2 : List Op} (h1 : reach st pre (.init vs) = some k)
    (h2 : reach st pre2 (.init vs) = some k) (hk : k.str = false) (op : Op) (tail : List Op) (ht : token op = true) :
    ∃ rs, runReader N st sched (pre ++ op :: tail) = runReader N st sched pre ++ rs ∧ runReader N st sched (pre2 ++ op :: tail) = runReader N st sched pre2 ++ rs := by
  obtain ⟨hm, t, hok, rfl, rfl⟩ := hv
  obtain ⟨rs, h3, h4⟩ := same_results (tail := tail) (repC_new (st := st) hok hm) ⟨_, _, invT_new t.bytes none⟩ h1 h2 hk ht
  refine ⟨rs, ?_, ?_⟩ <;> rw [runReader_abs hN hd, runReader_abs hN hd]
  · exact h3
  · exact h4

/-! ## C15 -/

/-- C15: `peek` returns the type of the next value -/
theorem C15_peek (hN : 0 < N) (hd : Delivers sched bytes none) (hv : Valid st bytes vs) (hr : reach st pre (.init vs) = some k)
    (hc : k.canValue st.allowMultipleTopLevel = true) (v : JVal) (hn : k.next = some v) :
    runReader N st sched (pre ++ [.peek]) = runReader N st sched pre ++ [.ok (.type (typeOf v))] := by
  obtain ⟨o, h1, h2⟩ := next_ok (op := .peek) (v := .type (typeOf v)) (c := k) hN hd hv hr (by rw [step, withValue, hc, hn]; rfl)
  rw [h1, type_of h2]

/-- after `begin_array` the next value is the number, after it has been skipped the object -/
example : (reach Settings.default [.beginArray] (.init [exValue])).map Cur.next = some (some (.num ['1'])) ∧
    (reach Settings.default [.beginArray, .skipValue] (.init [exValue])).map Cur.next = some (some (.obj [(['a'], .str ['b'])])) ∧
    (reach Settings.default [.beginArray, .skipValue] (.init [exValue])).map (Cur.canValue false) = some true := by decide +kernel

/-- the elements of the innermost open array or object which have not been consumed; at top level the values -/
def unread (k : Cur) : Nat := match k.frames with
  | [] => k.tops.length
  | .array _ rest :: _ => rest.length
  | .names _ rest :: _ => rest.length
  | .value _ _ rest :: _ => rest.length + 1

/-- C15: `has_next` is true if and only if there is an unread element. It can be called inside arrays, in front of names, and, if multiple top-level
values are enabled, behind a top-level value. -/
theorem C15_has_next (hN : 0 < N) (hd : Delivers sched bytes none) (hv : Valid st bytes vs) (hr : reach st pre (.init vs) = some k) (hs : k.str = false)
    (hk : match k.frames with | [] => k.started = true ∧ st.allowMultipleTopLevel = true | .value _ _ _ :: _ => False | _ => True) :
    runReader N st sched (pre ++ [.hasNext]) = runReader N st sched pre ++ [.ok (.bool (decide (0 < unread k)))] := by
  have hlen : ∀ {α : Type} (l : List α), (!l.isEmpty) = decide (0 < l.length) := by
    intro α l; cases l <;> simp
  have h : Cursor.step st k .hasNext = .ok (.bool (decide (0 < unread k))) k := by
    rw [step, hs, if_neg Bool.false_ne_true]
    unfold unread
    revert hk
    cases k.frames with
    | nil =>
      intro hk
      dsimp only at hk ⊢
      rw [hk.1, hk.2, hlen]
      rfl
    | cons f fs =>
      cases f with
      | array i rest => intro _; dsimp only; rw [hlen]
      | names l rest => intro _; dsimp only; rw [hlen]
      | value => intro hk; exact hk.elim
  obtain ⟨o, h1, h2⟩ := next_ok hN hd hv hr h
  rw [h1, bool_of h2]

example : (reach Settings.default [.beginArray, .skipValue] (.init [exValue])).map unread = some 1 ∧
    (reach Settings.default [.beginArray, .skipValue, .skipValue] (.init [exValue])).map unread = some 0 := by decide +kernel

/-! ## C16 -/

/-- C16: a call which fails because of the type or because of missing or additional elements (or because of the nesting limit, without skipping) does not
move the reader: the results of all further calls are the same as without the failed call. -/
theorem C16_mismatch_changes_nothing (hN : 0 < N) (hd : Delivers sched bytes none) (hv : Valid st bytes vs) (hr : reach st pre (.init vs) = some k)
    (hs : k.str = false) (bad : Op) (e : Kind) (c : Cur) (hb : Cursor.step st k bad = .err e c) (op : Op) (tail : List Op) (ht : token op = true) :
    ∃ x rs, kindOf x = e ∧ runReader N st sched (pre ++ bad :: op :: tail) = runReader N st sched pre ++ .error x :: rs ∧
      runReader N st sched (pre ++ op :: tail) = runReader N st sched pre ++ rs := by
  have h1 := next_result hN hd hv hr bad
  rw [hb] at h1
  obtain ⟨x, h1, h2⟩ := h1
  obtain rfl := step_err hb
  have hr2 : reach st (pre ++ [bad]) (.init vs) = some c := by
    rw [reach_append _ hr, reach, hb]
    rfl
  obtain ⟨rs, h3, h4⟩ := same_place hN hd hv hr2 hr hs op tail ht
  refine ⟨x, rs, h2, ?_, h4⟩
  rw [h1] at h3
  simpa using h3

/-- calls which fail at `{"a": "b"}`; the last one is made behind the name -/
example : ∀ op ∈ [Op.beginArray, .nextString, .nextNull, .endArray], ∃ e c, (reach Settings.default [.beginArray, .skipValue] (.init [exValue])).map (Cursor.step Settings.default · op) = some (.err e c) := by
  simp only [List.mem_cons, List.not_mem_nil, or_false]
  rintro op (rfl | rfl | rfl | rfl) <;> exact ⟨_, _, rfl⟩

/-! ## C17 -/

/-- C17: skipping a value is the same as reading it completely: every program which continues after reading the value behaves in the same way if
the value is skipped instead (and the program is given the value), including positions. -/
theorem C17_skip_is_read (hN : 0 < N) (hd : Delivers sched bytes none) (hv : Valid st bytes vs) (hr : reach st pre (.init vs) = some k)
    (hc : k.canValue st.allowMultipleTopLevel = true) (v : JVal) (hn : k.next = some v) (hdepth : k.tooDeep st.maxNestingDepth (depth v) = none)
    (hnum : st.restrictNumberValues = true → ∀ t ∈ numbers v, unsupportedNumber t = false) {n : Nat} (hle : bytes.length ≤ n) {α : Type} (p : JVal → Prog α) :
    exec N st sched (after pre (readValue n >>= p)) = exec N st sched (after pre (unitCall .skipValue >>= fun _ => p v)) := by
  obtain ⟨T, s, h1, rfl, _, _, _, h2⟩ := reached hN hd hv hr
  obtain ⟨s', h3, _, h4⟩ := h1.read_skip (n := n) hc hn hdepth
  rw [h2, h2, toR_bind, toR_bind, toR_unit (m := Reader.skipValue) rfl, M.bind_ok h3, M.bind_ok (h4 hnum hle)]

/-- skipping succeeds, without the condition on the numbers (see C05), and leads behind the value -/
theorem C17_skip_moves_behind (hN : 0 < N) (hd : Delivers sched bytes none) (hv : Valid st bytes vs) (hr : reach st pre (.init vs) = some k)
    (hc : k.canValue st.allowMultipleTopLevel = true) (v : JVal) (hn : k.next = some v) (hdepth : k.tooDeep st.maxNestingDepth (depth v) = none) :
    runReader N st sched (pre ++ [.skipValue]) = runReader N st sched pre ++ [.ok .unit] ∧ reach st (pre ++ [.skipValue]) (.init vs) = some k.advance := by
  have h : Cursor.step st k .skipValue = .ok .unit k.advance := by
    rw [step, withValue, hc, hn]
    dsimp only
    rw [hdepth]
    rfl
  obtain ⟨o, h1, h2⟩ := next_ok hN hd hv hr h
  rw [h1, unit_of h2]
  exact ⟨rfl, reach_ok hr h nofun⟩

example : (reach Settings.default [.beginArray, .skipValue] (.init [exValue])).map (fun k => (k.next, k.canValue false, k.tooDeep (some 128) 1)) =
    some (some (.obj [(['a'], .str ['b'])]), true, none) ∧ numbers (.obj [(['a'], .str ['b'])]) = [] ∧
    exec 4 Settings.default exSched (after [.beginArray, .skipValue] (readValue 15 >>= fun v => .call (.currentPosition true) fun r => .ret (v, r))) =
      .ok (.obj [(['a'], .str ['b'])], .ok (.position ⟨some [.arrayItem 2], 0, 14, 14⟩)) := by decide +kernel

/-! ## C08 -/

/-- C08: all ways to read a string give the same text and leave the reader in the same state: every program continues in the same way. `lens` are the
sizes of the buffers given to the string reader, which is read until the end of the string has been seen. -/
theorem C08_strings (hN : 0 < N) (hd : Delivers sched bytes none) (hv : Valid st bytes vs) (hr : reach st pre (.init vs) = some k)
    (hc : k.canValue st.allowMultipleTopLevel = true) (t : Text) (hn : k.next = some (.str t)) {α : Type} (p : Text → Prog α) :
    exec N st sched (after pre (textCall .nextString >>= p)) = exec N st sched (after pre (unitCall .skipValue >>= fun _ => p t)) ∧
    exec N st sched (after pre (textCall .nextStr >>= p)) = exec N st sched (after pre (unitCall .skipValue >>= fun _ => p t)) ∧
    ∀ (lens : List Nat) (q : Except RErr Out → Prog α), (enc t).length < lens.sum →
      exec N st sched (after pre (.call (.stringReader lens) q)) = exec N st sched (after pre (unitCall .skipValue >>= fun _ => q (.ok (.reads (chunks lens (enc t)))))) := by
  obtain ⟨T, s, h1, rfl, _, _, _, h2⟩ := reached hN hd hv hr
  obtain ⟨s', h3, h4, h5, h6⟩ := h1.string hc hn
  refine ⟨?_, ?_, fun lens q hlen => ?_⟩
  · rw [h2, h2, toR_bind, toR_bind, toR_unit (m := Reader.skipValue) rfl, toR_text (m := Reader.nextString) rfl, M.bind_ok h3, M.bind_ok h4]
  · rw [h2, h2, toR_bind, toR_bind, toR_unit (m := Reader.skipValue) rfl, toR_text (m := Reader.nextStr) rfl, M.bind_ok h3, M.bind_ok h5]
  · rw [h2, h2, toR_bind, toR_unit (m := Reader.skipValue) rfl, M.bind_ok h3, toR_call, runOp_reads, M.bind_ok (h6 lens hlen)]
    rfl

/-- the string `b`; reading it with buffers of size 1 and 1 -/
example : (reach Settings.default [.seekTo [.arrayItem 1, .objectMember ['a']]] (.init [exValue])).map (fun k => (k.next, k.canValue false)) = some (some (.str ['b']), true) ∧
    chunks [1, 1] (enc ['b']) = [[0x62], []] ∧ (enc ['b']).length < [1, 1].sum := by decide +kernel

/-- C08: all ways to read a name -/
theorem C08_names (hN : 0 < N) (hd : Delivers sched bytes none) (hv : Valid st bytes vs) (hr : reach st pre (.init vs) = some k) (hs : k.str = false)
    (last name : Text) (v : JVal) (rest : List (Text × JVal)) (fs : List Frame) (hk : k.frames = .names last ((name, v) :: rest) :: fs) {α : Type} (p : Text → Prog α) :
    exec N st sched (after pre (textCall .nextName >>= p)) = exec N st sched (after pre (unitCall .skipName >>= fun _ => p name)) ∧
    exec N st sched (after pre (textCall .nextNameOwned >>= p)) = exec N st sched (after pre (unitCall .skipName >>= fun _ => p name)) := by
  obtain ⟨T, s, h1, rfl, _, _, _, h2⟩ := reached hN hd hv hr
  obtain ⟨s', h3, h4, h5, _⟩ := h1.name hs hk
  refine ⟨?_, ?_⟩
  · rw [h2, h2, toR_bind, toR_bind, toR_unit (m := Reader.skipName) rfl, toR_text (m := Reader.nextName) rfl, M.bind_ok h3, M.bind_ok h4]
  · rw [h2, h2, toR_bind, toR_bind, toR_unit (m := Reader.skipName) rfl, toR_text (m := Reader.nextNameOwned) rfl, M.bind_ok h3, M.bind_ok h5]

example : (reach Settings.default [.beginArray, .skipValue, .beginObject] (.init [exValue])).map (fun k => k.frames) =
    some [.names ['<', '?', '>'] [(['a'], .str ['b'])], .array 1 [.obj [(['a'], .str ['b'])]]] := by rfl

/-! ## C20 -/

/-- C20: the path of `current_position` is the one of the place -/
theorem C20_path_of_place (hN : 0 < N) (hd : Delivers sched bytes none) (hv : Valid st bytes vs) (ht : st.trackPath = true) (hr : reach st pre (.init vs) = some k) :
    ∃ pos, runReader N st sched (pre ++ [.currentPosition true]) = runReader N st sched pre ++ [.ok (.position pos)] ∧ pos.path = some k.path := by
  have h : Cursor.step st k (.currentPosition true) = .ok (.path (some k.path)) k := by
    rw [step, ht]
    rfl
  obtain ⟨o, h1, h2⟩ := next_ok hN hd hv hr h
  cases o with
  | position pos => injection h2 with h2; exact ⟨pos, h1, h2⟩
  | unit | type | bool | text | reads => cases h2

example : (reach Settings.default [.beginArray, .skipValue, .beginObject, .skipName] (.init [exValue])).map Cur.path =
    some [.arrayItem 1, .objectMember ['a']] := by decide +kernel

/-! ## C21 -/

theorem not_deep {d : Nat} {s : Step} (hd : k.tooDeep st.maxNestingDepth d = none) (h : DeepStop st (k.frames.length + d) s) : False := by
  obtain ⟨n, h1, h2, _⟩ := h
  unfold Cur.tooDeep at hd
  rw [h1] at hd
  dsimp only at hd
  rw [if_pos h2] at hd
  cases hd

/-- C21: `seek_to` succeeds if and only if the path leads to a value, and then the next value is this value: reading gives it. Otherwise the error describes
where the path leaves the document. (The nesting depth of the value at which the search starts has to be within the limit.) -/
theorem C21_seek_to (hN : 0 < N) (hd : Delivers sched bytes none) (hv : Valid st bytes vs) (hr : reach st pre (.init vs) = some k)
    (hc : k.canValue st.allowMultipleTopLevel = true) (v : JVal) (hn : k.next = some v) (hdepth : k.tooDeep st.maxNestingDepth (depth v) = none) (path : List PathPiece) :
    match find path v with
    | .ok w => ∃ k', runReader N st sched (pre ++ [.seekTo path]) = runReader N st sched pre ++ [.ok .unit] ∧
        reach st (pre ++ [.seekTo path]) (.init vs) = some k' ∧ k'.next = some w ∧ k'.canValue st.allowMultipleTopLevel = true ∧ k'.frames.length = k.frames.length + path.length
    | .error e => ∃ x, runReader N st sched (pre ++ [.seekTo path]) = runReader N st sched pre ++ [.error x] ∧ kindOf x = e := by
  have hstep : Cursor.step st k (.seekTo path) = seek st path k := by
    rw [step, withValue, hc, hn]
    rfl
  have h := (seek_find (st := st) path hc hn).resolve_left fun h => not_deep hdepth h
  cases hf : find path v with
  | error e =>
    rw [hf] at h
    dsimp only at h ⊢
    have h1 := next_result hN hd hv hr (.seekTo path)
    rw [hstep, h] at h1
    exact h1
  | ok w =>
    rw [hf] at h
    obtain ⟨k', h1, h2, h3, h4⟩ := h
    rw [← hstep] at h1
    obtain ⟨o, h5, h6⟩ := next_ok hN hd hv hr h1
    exact ⟨k', by rw [h5, unit_of h6], reach_ok hr h1 nofun, h2, h3, h4⟩

/-- depth of the value to which a path leads -/
theorem find_depth : ∀ {path : List PathPiece} {v w : JVal}, find path v = .ok w → path.length + depth w ≤ depth v
  | [], v, w, h => by cases h; simp
  | .arrayItem i :: ps, v, w, h => by
    cases v with
    | arr vs =>
      unfold find at h
      cases hi : vs[i]? with
      | none => rw [hi] at h; cases h
      | some u =>
        rw [hi] at h
        have h1 := find_depth h
        have h2 := depthItems_mem (List.mem_of_getElem? hi)
        simp only [depth, List.length_cons]
        omega
    | null | bool | num | str | obj => cases h
  | .objectMember name :: ps, v, w, h => by
    cases v with
    | obj ms =>
      unfold find at h
      cases hi : ms.find? fun m => m.1 = name with
      | none => rw [hi] at h; cases h
      | some u =>
        rw [hi] at h
        have h1 := find_depth h
        have h2 := depthItems_mem (List.mem_map_of_mem (f := Prod.snd) (List.mem_of_find?_eq_some hi))
        rw [← depthMembers_map] at h2
        simp only [depth, List.length_cons]
        omega
    | null | bool | num | str | arr => cases h

theorem tooDeep_le {k' : Cur} {n d d' : Nat} (h1 : k'.frames.length = k.frames.length + n) (h2 : n + d' ≤ d) (hd : k.tooDeep st.maxNestingDepth d = none) :
    k'.tooDeep st.maxNestingDepth d' = none := by
  unfold Cur.tooDeep at hd ⊢
  cases hm : st.maxNestingDepth with
  | none => rfl
  | some m =>
    rw [hm] at hd
    dsimp only at hd ⊢
    split at hd
    · cases hd
    · rw [if_neg (by omega)]

theorem advance_str (k : Cur) : k.advance.str = k.str := by
  unfold Cur.advance
  split <;> rfl

theorem canValue_str {m : Bool} (h : k.canValue m = true) : k.str = false := by
  unfold Cur.canValue at h
  cases hk : k.str with
  | false => rfl
  | true => rw [hk] at h; cases h

/-- C21: reading the value after `seek_to` gives the value to which the path leads -/
theorem C21_seek_to_read (hN : 0 < N) (hd : Delivers sched bytes none) (hv : Valid st bytes vs) (hr : reach st pre (.init vs) = some k)
    (hc : k.canValue st.allowMultipleTopLevel = true) (v w : JVal) (hn : k.next = some v) (hdepth : k.tooDeep st.maxNestingDepth (depth v) = none) (path : List PathPiece)
    (hf : find path v = .ok w) (hnum : st.restrictNumberValues = true → ∀ t ∈ numbers w, unsupportedNumber t = false) {n : Nat} (hle : bytes.length ≤ n) :
    exec N st sched (after pre (do unitCall (.seekTo path); readValue n)) = .ok w := by
  have h := (seek_find (st := st) path hc hn).resolve_left fun h => not_deep hdepth h
  rw [hf] at h
  obtain ⟨k', hstep, h3, h4, h5⟩ := h
  have hstep : Cursor.step st k (.seekTo path) = .ok .unit k' := by
    rw [step, withValue, hc, hn]
    exact hstep
  obtain ⟨T, s, h6, rfl, _, _, _, h7⟩ := reached hN hd hv hr
  have hdepth' : k'.tooDeep st.maxNestingDepth (depth w) = none := tooDeep_le h5 (find_depth hf) hdepth
  have h9 := step_sim h6 (.seekTo path) nofun
  rw [hstep] at h9
  obtain ⟨o, s1, h9, _, h10⟩ := h9
  obtain ⟨s', _, _, h8⟩ := h10.read_skip (n := n) h4 h3 hdepth'
  rw [h7]
  have h11 : ((Reader.seekTo path).run s : Res RErr St Unit) = .ok () s1 := by
    have h9 : (unitOut (Reader.seekTo path)).run s = .ok o s1 := h9
    rw [unitOut, M.run_bind] at h9
    revert h9
    cases (Reader.seekTo path).run s with
    | ok a t => intro h9; cases h9; rfl
    | err => intro h9; cases h9
  have h12 : (do unitCall (.seekTo path); readValue n : Prog JVal).toR.run s = .ok w s' := by
    show ((unitCall (.seekTo path) >>= fun _ => readValue n).toR).run s = _
    rw [toR_bind, toR_unit (m := Reader.seekTo path) rfl, M.bind_ok h11]
    exact h8 hnum hle
  rw [h12]

/-- the path `[1].a` leads to the string, `[2]` and `[1].b` lead nowhere -/
example : find [.arrayItem 1, .objectMember ['a']] exValue = .ok (.str ['b']) ∧ find [.arrayItem 2] exValue = .error (.structure (.tooShortArray 2)) ∧
    find [.arrayItem 1, .objectMember ['b']] exValue = .error (.structure (.missingObjectMember ['b'])) ∧ find [.objectMember ['a']] exValue = .error (.type .object .array) ∧
    (reach Settings.default [] (.init [exValue])).map (fun k => (k.next, k.canValue false, k.tooDeep (some 128) (depth exValue))) = some (some exValue, true, none) := by
  decide +kernel

/-! ## C22 -/

/-- C22: after `seek_to(path)`, skipping the value, and `seek_back(path)` all further results are the same as after skipping the value at which `seek_to` was
called. (Instead of skipping, the value can also be read, see C17.) -/
theorem C22_seek_back (hN : 0 < N) (hd : Delivers sched bytes none) (hv : Valid st bytes vs) (hr : reach st pre (.init vs) = some k)
    (hc : k.canValue st.allowMultipleTopLevel = true) (v w : JVal) (hn : k.next = some v) (hdepth : k.tooDeep st.maxNestingDepth (depth v) = none) (path : List PathPiece)
    (hf : find path v = .ok w) (op : Op) (tail : List Op) (ht : token op = true) :
    ∃ rs, runReader N st sched (pre ++ .seekTo path :: .skipValue :: .seekBack path :: op :: tail) = runReader N st sched pre ++ .ok .unit :: .ok .unit :: .ok .unit :: rs ∧
      runReader N st sched (pre ++ .skipValue :: op :: tail) = runReader N st sched pre ++ .ok .unit :: rs := by
  have h := C21_seek_to hN hd hv hr hc v hn hdepth path
  rw [hf] at h
  obtain ⟨k', h1, h2, h3, h4, h5⟩ := h
  have hdepth' : k'.tooDeep st.maxNestingDepth (depth w) = none := tooDeep_le h5 (find_depth hf) hdepth
  obtain ⟨h6, h7⟩ := C17_skip_moves_behind hN hd hv h2 h4 w h3 hdepth'
  obtain ⟨h8, h9⟩ := C17_skip_moves_behind hN hd hv hr hc v hn hdepth
  have h10 : Cursor.step st k'.advance (.seekBack path) = .ok .unit k.advance := by
    have hs : k'.advance.str = false := (advance_str _).trans (canValue_str h4)
    rw [step, hs, if_neg Bool.false_ne_true]
    obtain ⟨x, hx⟩ : ∃ x, seek st path k = .ok x k' := by
      have h := (seek_find (st := st) path hc hn).resolve_left fun h => not_deep hdepth h
      rw [hf] at h
      obtain ⟨k2, hk2, _⟩ := h
      have hstep : Cursor.step st k (.seekTo path) = .ok .unit k2 := by
        rw [step, withValue, hc, hn]
        exact hk2
      rw [reach_ok hr hstep nofun] at h2
      cases h2
      exact ⟨_, hk2⟩
    exact (seek_back path hc hn hx).resolve_right fun h => not_deep hdepth h
  obtain ⟨o, h11, h12⟩ := next_ok hN hd hv h7 h10
  have h13 := reach_ok h7 h10 nofun
  obtain ⟨rs, h14, h15⟩ := same_place hN hd hv h13 h9 ((advance_str _).trans (canValue_str hc)) op tail ht
  rw [h11, h6, h1, unit_of h12] at h14
  rw [h8] at h15
  exact ⟨rs, by simpa using h14, by simpa using h15⟩

/-! ## C23 -/

/-- C23: from any place inside a top-level value `t` (whose nesting depth is within the limit) `skip_to_top_level` succeeds, leaves nothing open, and all
further results are the same as after skipping `t` as a whole. `pre0` are calls which lead in front of `t`. -/
theorem C23_skip_to_top_level (hN : 0 < N) (hd : Delivers sched bytes none) (hv : Valid st bytes vs) {pre0 : List Op} {b : Bool} {t : JVal} {ts : List JVal}
    (h0 : reach st pre0 (.init vs) = some ⟨[], b, t :: ts, false⟩) (hc : b = false ∨ st.allowMultipleTopLevel = true) (hr : reach st pre (.init vs) = some k)
    (hs : k.str = false) (hk : k.frames ≠ []) (hkt : k.tops = t :: ts) (hdepth : ∀ n, st.maxNestingDepth = some n → depth t ≤ n) (op : Op) (tail : List Op) (ht : token op = true) :
    reach st (pre ++ [.skipToTopLevel]) (.init vs) = some ⟨[], true, ts, false⟩ ∧
    ∃ rs, runReader N st sched (pre ++ .skipToTopLevel :: op :: tail) = runReader N st sched pre ++ .ok .unit :: rs ∧
      runReader N st sched (pre0 ++ .skipValue :: op :: tail) = runReader N st sched pre0 ++ .ok .unit :: rs := by
  have h1 := (skipToTopLevel_step (st := st) (cursor_in_document hr) hs).resolve_left (by
    rintro ⟨t', ht', n, h1, h2, _⟩
    rw [hkt] at ht'
    cases ht'
    have := hdepth n h1
    omega)
  rw [if_neg hk, hkt] at h1
  obtain ⟨o, h2, h3⟩ := next_ok hN hd hv hr h1
  have h4 := reach_ok hr h1 nofun
  have hd0 : Cur.tooDeep st.maxNestingDepth ⟨[], b, t :: ts, false⟩ (depth t) = none := by
    unfold Cur.tooDeep
    cases hm : st.maxNestingDepth with
    | none => rfl
    | some n =>
      have := hdepth n hm
      dsimp only [List.length_nil]
      rw [if_neg (by omega)]
  have hc0 : Cur.canValue st.allowMultipleTopLevel ⟨[], b, t :: ts, false⟩ = true := by
    rcases hc with rfl | hc
    · rfl
    · rw [hc]; cases b <;> rfl
  obtain ⟨h5, h6⟩ := C17_skip_moves_behind hN hd hv h0 hc0 t rfl hd0
  obtain ⟨rs, h7, h8⟩ := same_place hN hd hv h4 h6 rfl op tail ht
  rw [h2, unit_of h3] at h7
  rw [h5] at h8
  exact ⟨h4, rs, by simpa using h7, by simpa using h8⟩

/-- inside the object in the array -/
example : (reach Settings.default [] (.init [exValue])) = some ⟨[], false, [exValue], false⟩ ∧
    (reach Settings.default [.beginArray, .skipValue, .beginObject] (.init [exValue])).map (fun k => (k.str, k.frames.length, k.tops)) = some (false, 2, [exValue]) := by
  exact ⟨rfl, rfl⟩

end Verif.Props

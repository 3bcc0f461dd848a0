import Verif.Props.Documents
import Verif.Props.Calls
import Verif.Props.WriterStrings
/-!
# The default settings
-/

namespace Verif.Props
open Reader Usage Json Position Prog

section
variable {N : Nat} {bytes : Bytes} {sched : List ReadEvent}

/-- C61: with the default settings reading a document succeeds if and only if the input is a JSON document according to RFC 8259 (without any extension) with at most 128 nested arrays and objects
and without numbers with more than 100 characters or more than two exponent digits. -/
theorem C61_reader_accepts (hN : 0 < N) (hd : Delivers sched bytes none) {n : Nat} (hn : 2 * bytes.length < n) (v : JVal) :
    exec N .default sched (readDoc n) = .ok v ↔
      ∃ d : Doc, d.Ok .rfc ∧ d.bytes = bytes ∧ d.value.value = v ∧ d.value.depth ≤ 128 ∧ d.value.Nums fun bs => ¬ UnsupportedNumber bs := by
  rw [C11_C12_read_document hN .default hd hn]
  refine exists_congr fun d => and_congr_right fun _ => and_congr_right fun _ => and_congr_right fun _ => ?_
  unfold Cst.Within
  have h1 : (∀ n, Settings.default.maxNestingDepth = some n → d.value.depth ≤ n) ↔ d.value.depth ≤ 128 := ⟨fun h => h 128 rfl, fun h n hn => by cases hn; exact h⟩
  have h2 : (fun bs => ¬ (Settings.default.restrictNumberValues = true ∧ UnsupportedNumber bs)) = fun bs => ¬ UnsupportedNumber bs := by
    funext bs
    exact propext ⟨fun h hx => h ⟨rfl, hx⟩, fun h hx => h hx.2⟩
  rw [h1, h2]

/-- a comment and a trailing comma are rejected, a document without them is accepted -/
example : exec 4 .default [.data "[1, 2]".toUTF8.toList] (readDoc 13) = .ok (.arr [.num ['1'], .num ['2']]) ∧
    (match exec 4 .default [.data "[1, 2,]".toUTF8.toList] (readDoc 15) with | .error (.syntax .trailingCommaNotEnabled _) => true | _ => false) = true ∧
    (match exec 4 .default [.data "[/**/]".toUTF8.toList] (readDoc 13) with | .error (.syntax .commentsNotEnabled _) => true | _ => false) = true := by
  decide +kernel

/-- 128 nested arrays can be opened, the next one is rejected -/
example : runReader 64 .default [.data (List.replicate 130 0x5B)] (List.replicate 130 .beginArray) =
    List.replicate 128 (.ok .unit) ++ [.error (.maxNestingDepthExceeded 128 ⟨some (List.replicate 128 (.arrayItem 0)), 0, 128, 128⟩), .error (.maxNestingDepthExceeded 128 ⟨some (List.replicate 128 (.arrayItem 0)), 0, 128, 128⟩)] := by
  decide +kernel

/-- C61: with the default settings nothing can be read behind the top-level value -/
theorem C61_reader_single_value (hN : 0 < N) (sched : List ReadEvent) (pre : List Op) (m : Mode) (hm : Mode.init.after pre (runReader N .default sched pre) = some m)
    (hf : m.frames = []) (hs : m.started = true) {op : Op} (hop : op ∈ [Op.peek, .beginArray, .beginObject, .nextString, .nextStr, .nextNumberAsStr, .nextNumberAsString, .nextBool, .nextNull, .hasNext, .skipValue]) :
    ∃ p, runReader N .default sched (pre ++ [op]) = runReader N .default sched pre ++ [.error (.panic (.usage p))] := by
  refine C28_misuse_panics hN .default sched pre op m hm ?_ ?_
  · obtain ⟨fs, st, str⟩ := m
    cases hf
    cases hs
    have : ∀ str : Bool, ∀ op ∈ [Op.peek, .beginArray, .beginObject, .nextString, .nextStr, .nextNumberAsStr, .nextNumberAsString, .nextBool, .nextNull, .hasNext, .skipValue],
      Mode.allowed false ⟨[], true, str⟩ op = false := by decide
    exact this str op hop
  · rintro path rfl
    simp at hop

/-- `1 2`: the second value cannot be read -/
example : Mode.init.after [.nextNumberAsStr] (runReader 4 .default [.data "1 2".toUTF8.toList] [.nextNumberAsStr]) = some ⟨[], true, false⟩ ∧
    runReader 4 .default [.data "1 2".toUTF8.toList] [.nextNumberAsStr, .nextNumberAsStr] = [.ok (.text ['1']), .error (.panic (.usage .peekAfterTopLevel))] := by
  decide +kernel

/-- C61: with the default settings positions include the path -/
theorem C61_reader_path (hN : 0 < N) {e : Option Nat} (hd : Delivers sched bytes e) (pre : List Op) (m : Mode) (hm : Mode.init.after pre (runReader N .default sched pre) = some m)
    (hn : ∀ t l, Except.error (.unsupportedNumberValue t l) ∉ runReader N .default sched pre) :
    ∃ P path, runReader N .default sched (pre ++ [.currentPosition true]) = runReader N .default sched pre ++ [.ok (.position P)] ∧ P.path = some path ∧ path.length = m.frames.length := by
  obtain ⟨c, x, y, h⟩ := C19_C20_position hN .default hd pre m true hm hn
  obtain ⟨-, -, h1, -, h2⟩ := h
  refine ⟨_, _, h2, rfl, ?_⟩
  have h3 : m.frames = c.frames := by
    have := congrArg Mode.frames h1
    exact this.symm
  have h4 : ∀ c : Abs.Ctx, c.path.length = c.frames.length := by
    intro c
    induction c with
    | top _ => rfl
    | arr _ _ _ ih => simp [Abs.Ctx.path, Abs.Ctx.frames, ih]
    | obj _ _ _ ih => simp [Abs.Ctx.path, Abs.Ctx.frames, ih]
    | val _ _ _ _ _ ih => simp [Abs.Ctx.path, Abs.Ctx.frames, ih]
  rw [List.length_reverse, h3, h4]

example : Mode.init.after [.beginArray, .nextNull] (runReader 4 .default [.data "[null".toUTF8.toList] [.beginArray, .nextNull]) = some ⟨[.array], false, false⟩ ∧
    runReader 4 .default [.data "[null".toUTF8.toList] [.beginArray, .nextNull, .currentPosition true] = [.ok .unit, .ok .unit, .ok (.position ⟨some [.arrayItem 1], 0, 5, 5⟩)] := by
  decide +kernel

end

section
open Writer WSpec
variable {N : Nat} {sink sink' : Sink}

/-- C61: with the default settings a successful `finish_document` means that exactly one value was written, as JSON document without any whitespace between the tokens -/
theorem C61_writer_output (hN : 0 < N) (body : List WOp) (hb : .finishDocument ∉ body) (hop : ∀ op ∈ body, OpOk op) {rs : List (Except WErr WOut)}
    (hrun : execW N .default sink (body ++ [.finishDocument]) = (.ok rs, sink')) (hlast : rs.getLast? = some (.ok .unit)) :
    ∃ v c, Steps .default .empty body ⟨[v], [], none⟩ ∧ sink'.received = sink.received ++ c.bytes ∧ c.Ok .rfc ∧ c.value = v ∧ stripWs c = c := by
  obtain ⟨vs, hne, hst, hok, hr, _⟩ := run_success hN hb hop hrun hlast
  match vs, hne, hok, hr, hst with
  | [v], _, hok, hr, hst =>
    refine ⟨v, cst .default 0 v, hst, by rw [hr]; simp [topsBytes], cst_ok 0 v hok.tops.1, cst_value 0 v hok.tops.1, ?_⟩
    exact strip_cst 0 0 v
  | u :: v :: vs, _, hok, _, _ =>
    rcases hok.single with h | h
    · simp at h
    · exact absurd rfl h

/-- `["ä",{"a":1}]` -/
example : let r := execW 4 WSettings.default ⟨[], [.accept 1], []⟩ [.beginArray, .stringValue ['ä'], .beginObject, .name ['a'], .numberValueFromString ['1'], .endObject, .endArray, .finishDocument]
    (match r.1 with | .ok rs => (match rs.getLast? with | some (.ok .unit) => true | _ => false) | .error _ => false) = true ∧ r.2.received = "[\"ä\",{\"a\":1}]".toUTF8.toList := by
  decide +kernel

/-- C61: with the default settings only the characters which must be escaped according to RFC 8259 are escaped -/
theorem C61_writer_escapes (c : Char) : mustEscape .default c ↔ c = '"' ∨ c = '\\' ∨ c.toNat < 0x20 := by
  unfold mustEscape WSettings.default
  simp

end

end Verif.Props

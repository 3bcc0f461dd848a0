import Verif.Proofs.SimpleReader.Sticky
import Verif.Proofs.SimpleReader.Exec
/-!
# Properties of the Simple reader API: C45, C46, C47
-/

namespace Verif.Props
open Reader SimpleReader SimpleReaderSpec

variable {V : Type}

/-! ## C46 -/

/-- **C46** As soon as any method of the underlying reader has failed, no method of it is called any more (except for `current_position`), for all readers, all closures and all
fuel; in particular the closures may discard any error. The internal panics "unreachable" and "index out of bounds" do not occur. -/
theorem C46_untouched (fuel : Nat) (c : TopC V) : Sticky (fun _ => True) (run fuel c) := sticky_run fuel c

/-- **C46** A method of `SimpleJsonReader` which reads a value fails if any method of the underlying reader fails during it, also if closures discard errors; and it fails without
using the underlying reader if there has been an error before -/
theorem C46_read_fails (fuel : Nat) (hasSeeked : Bool) (o : ValOp V) :
    Sticky (fun x => isErr x.1 = true) ((readTop fuel hasSeeked o).run none) ∧
    ∀ e, Untouched (fun x => isErr x.1 = true) ((readTop fuel hasSeeked o).run (some e)) :=
  ⟨(top_read fuel hasSeeked o).inner, (top_read fuel hasSeeked o).stops⟩

/-- **C46** (partial, because it is not true for `read_seeked_multi` with an empty path, see `C46_counterexample_empty_path`) A method of a `ValueReader` fails and stores the error if
any method of the underlying reader fails during it, also if closures discard errors -/
theorem C46_method_fails_partial (fuel : Nat) (o : ValOp V) (ho : ∀ b init f, o ≠ .seekedMulti [] b init f) :
    Sticky (fun x => isErr x.1 = true ∧ x.2.isSome = true) ((value fuel o).run none) := by
  refine (strong_value fuel o ?_).inner.mono fun x hx => ⟨hx.2 rfl, hx.1⟩
  unfold emptyMulti
  split
  · exact absurd rfl (ho _ _ _)
  · rfl

/-- **C46** (partial, see above) If there is a stored error each method of a `ValueReader` fails with this error, without using the underlying reader -/
theorem C46_later_fails_partial (fuel : Nat) (e : Stored) (o : ValOp V) (ho : ∀ b init f, o ≠ .seekedMulti [] b init f) :
    Untouched (fun x => x = (.error (.stored e), some e)) ((value fuel o).run (some e)) := by
  refine value_some fuel o ?_ e
  unfold emptyMulti
  split
  · exact absurd rfl (ho _ _ _)
  · rfl

/-- **C46** The remaining methods: `peek_value`, `has_next`, `read_name`, `seek_to` -/
theorem C46_later_fails_other (e : Stored) (path : List PathPiece) :
    (peek (V := V)).run (some e) = .ret (.error (.stored e), some e) ∧ (boolCall (V := V) .hasNext).run (some e) = .ret (.error (.stored e), some e) ∧
    (textCall (V := V) .nextName).run (some e) = .ret (.error (.stored e), some e) ∧ (unitCall (V := V) (.seekTo path)).run (some e) = .ret (.error (.stored e), some e) :=
  ⟨rfl, rfl, rfl, rfl⟩

/-- **C46** `read` of a `StringValueReader` after an error of it -/
theorem C46_string_later_fails (len : Nat) (e : RErr) : (stringRead (V := V) len).run (some (toStore (.string e))) = .ret (.error (.stored (toStore (.string e))), some (toStore (.string e))) := rfl

/-- **C46** is not true for `read_seeked_multi` with an empty path, whose closure discards the error: it succeeds although there is a stored error. (The underlying reader is not
used, and the next method which is used fails.) -/
theorem C46_counterexample_empty_path (fuel : Nat) (e : Stored) (b : Bool) (v : V) :
    (value fuel (.seekedMulti [] b v fun v => .op .null fun _ => .ok v)).run (some e) = .ret (.ok (.val v), some e) := rfl

/-! ### Examples -/

/-- A client which discards all errors: the items of an array are read as `null` -/
def exDiscard : TopC Nat := .op (.array (.op .null fun _ => .op .null fun _ => .ret (.ok 0))) fun
  | .ok (.val n) => .ok n
  | .ok _ => .ok 1
  | .error e => .error e

/-- its calls if the second `next_null` fails: nothing is called afterwards, and the result is an error -/
example : ((run 10 exDiscard).run (S := List (SCall Nat × Nat))
    (fun
      | .op .nextNull, s => .ret (if s.length < 2 then .ok .unit else .error (.unexpectedValueType .null .boolean ⟨none, 0, 0, 0⟩)) (s ++ [(.op .nextNull, s.length)])
      | .op o, s => .ret (.ok .unit) (s ++ [(.op o, s.length)])
      | _, _ => .unspecified) []).forget =
    .ret (.error (.stored (.dummy (some ⟨none, 0, 0, 0⟩)))) () := rfl

/-! ## C45

`SimpleReaderSpec.top ⟨st, 0⟩ v c` (`Verif/Spec/SimpleReader.lean`): what the usage `c` of the API gives for a document which consists of the value `v`. There each
closure is given the value for which it is called, regardless of what other closures read. -/

section
open Json Cursor Prog

variable {N : Nat} {st : Settings} {sched : List ReadEvent} {bytes : Bytes} {v : JVal} {c : TopC V}

/-- the nesting limit of the reader is not exceeded -/
def WithinLimit (st : Settings) (v : JVal) : Prop := ∀ n, st.maxNestingDepth = some n → depth v ≤ n

theorem top_start (hN : 0 < N) (hd : Delivers sched bytes none) (hv : Valid st bytes [v]) (hl : WithinLimit st v) (b : Meets.Cond) (hb : b → PassesTop c) (hu : b.strict → StopsTop c) {fuel : Nat} (hf : weight v ≤ fuel) :
    match top ⟨st, 0⟩ v c with
    | .ok x => execSimple N st sched fuel c = .ret (.ok x) ()
    | .err e => b → ∃ y, execSimple N st sched fuel c = .ret (.error y) () ∧ kind y = e
    | .misuse => b.strict → ∃ p, execSimple N st sched fuel c = .panic p ∧ Misused p := by
  obtain ⟨hm, t, hok, rfl, ht⟩ := hv
  have hfit : Fits st 0 v := fun n hn => by rw [Nat.zero_add]; exact hl n hn
  have hhere : Here st fuel (Cur.init [v]) ⟨st, 0⟩ v := ⟨by rfl, rfl, rfl, hfit, hf, rfl⟩
  have h1 := top_meets (T := t) (b := b) hfit c hb hu hhere Cur.In.init (hasSeeked := false) fun _ => rfl
  have h2 := h1 (some ⟨Reader.new ⟨t.bytes, none, []⟩ st, StrReader.new⟩) ⟨_, _, rfl, by have h := Abs.repC_new (st := st) hok (ht ▸ hm); rwa [ht] at h⟩
  have h3 : execSimple N st sched fuel c = ((SimpleReader.run fuel c).run perform (some ⟨Reader.new (σ := AbsSrc) ⟨t.bytes, none, []⟩ st, StrReader.new⟩)).forget := srun_abs hN hd st _
  have h4 : ∀ s : Option (Rd AbsSrc), (SimpleReader.run fuel c).run perform s = match ((topC fuel false c).run none).run perform s with
      | .ret (r, _) s' => .ret r s'
      | .panic p => .panic p
      | .unspecified => .unspecified := by
    intro s
    unfold SimpleReader.run
    rw [Calls.run_bind]
    cases ((topC fuel false c).run none).run perform s with
    | ret a s' => rfl
    | panic p => rfl
    | unspecified => rfl
  rw [h3, h4]
  cases hx : top ⟨st, 0⟩ v c with
  | ok x =>
    rw [hx] at h2
    obtain ⟨a, k', s', h5, _, rfl⟩ := h2
    rw [h5]
    rfl
  | err e =>
    rw [hx] at h2
    intro hb'
    obtain ⟨y, d', s', h5, h6⟩ := h2 hb'
    exact ⟨y, by rw [h5]; rfl, h6⟩
  | misuse =>
    rw [hx] at h2
    intro hb'
    rcases h2 hb' with ⟨p, h5, h6⟩ | ⟨_, _, _, _, h6⟩
    · exact ⟨p, by rw [h5]; rfl, h6⟩
    · exact h6.elim

/-- **C45** Reading a document with the Simple API gives what is specified for its value, for arbitrary closures. (The loops need a sufficient number of iterations.) -/
theorem C45_value (hN : 0 < N) (hd : Delivers sched bytes none) (hv : Valid st bytes [v]) (hl : WithinLimit st v) {x : V} (hx : top ⟨st, 0⟩ v c = .ok x) :
    ∃ n, ∀ fuel, n ≤ fuel → execSimple N st sched fuel c = .ret (.ok x) () := by
  refine ⟨weight v, fun fuel hf => ?_⟩
  have h := top_start hN hd hv hl (c := c) ⟨False, False⟩ nofun nofun hf
  rw [hx] at h
  exact h

/-- **C45** If an error is specified for the value then this error is returned, provided that closures pass on errors of the methods they call. (They may also create own
errors.) -/
theorem C45_error (hN : 0 < N) (hd : Delivers sched bytes none) (hv : Valid st bytes [v]) (hl : WithinLimit st v) (hp : PassesTop c) {e : SKind} (hx : top ⟨st, 0⟩ v c = .err e) :
    ∃ n, ∀ fuel, n ≤ fuel → ∃ y, execSimple N st sched fuel c = .ret (.error y) () ∧ kind y = e := by
  refine ⟨weight v, fun fuel hf => ?_⟩
  have h := top_start hN hd hv hl (c := c) ⟨True, False⟩ (fun _ => hp) nofun hf
  rw [hx] at h
  exact h trivial

/-- **C45** If the usage is incorrect (the specification says so: `read_name` is called again for the same member, or `MapAccess` or `EnumAccess` are not used as documented)
then there is one of the documented panics. With `C45_value` and `C45_error` all cases are covered. -/
theorem C45_misuse (hN : 0 < N) (hd : Delivers sched bytes none) (hv : Valid st bytes [v]) (hl : WithinLimit st v) (hu : StopsTop c) (hx : top ⟨st, 0⟩ v c = .misuse) :
    ∃ n, ∀ fuel, n ≤ fuel → ∃ p, execSimple N st sched fuel c = .panic p ∧ Misused p := by
  refine ⟨weight v, fun fuel hf => ?_⟩
  have h := top_start hN hd hv hl (c := c) ⟨False, True⟩ nofun (fun _ => hu) hf
  rw [hx] at h
  exact h trivial

/-! ### Examples -/

/-- `[{"a":1,"b":"xy"},{"a":2}]` -/
def simpleBytes : Bytes := [0x5B, 0x7B, 0x22, 0x61, 0x22, 0x3A, 0x31, 0x2C, 0x22, 0x62, 0x22, 0x3A, 0x22, 0x78, 0x79, 0x22, 0x7D, 0x2C, 0x7B, 0x22, 0x61, 0x22, 0x3A, 0x32, 0x7D, 0x5D]
def simpleValue : JVal := .arr [.obj [(['a'], .num ['1']), (['b'], .str ['x', 'y'])], .obj [(['a'], .num ['2'])]]
def simpleSched : List ReadEvent := simpleBytes.map fun b => .data [b]

theorem simple_delivers : Delivers simpleSched simpleBytes none := by
  unfold simpleSched
  induction simpleBytes with
  | nil => exact .done
  | cons b bs ih => exact .data b [] ih

theorem simple_valid : Valid Settings.default simpleBytes [simpleValue] := by
  have h : exec 4 Settings.default simpleSched (readDoc 60) = .ok simpleValue := by decide +kernel
  obtain ⟨d, h1, h2, h3, _⟩ := (C11_C12_read_document (by decide) _ simple_delivers (by decide) _).1 h
  exact valid_of_doc ⟨d, h1, h2, h3⟩

theorem simple_within : WithinLimit Settings.default simpleValue := by
  intro n hn
  cases hn
  decide

/-- the operator `?` -/
def got {V : Type} : Except SErr (Got V) → Except SErr V
  | .ok (.val x) => .ok x
  | .ok _ => .error (.closure [])
  | .error e => .error e

/-- closure for a member: `b`: reads one byte of the string; other members: neither the name nor the value is read if there is a result already -/
def exMember (x : Bytes) : MemC Bytes :=
  if x = [] then .readName fun
    | .ok name => if name = ['b'] then .op (.stringReader (.read 1 fun
        | .ok bs => .ret (.ok bs)
        | .error e => .ret (.error e))) got
      else .ret (.ok x)
    | .error e => .ret (.error e)
  else .ret (.ok x)

def exPartial : TopC Bytes := .op (.arrayItems [] fun x => .op (.objectBorrowed x exMember) got) got

example : top ⟨Settings.default, 0⟩ simpleValue exPartial = .ok [0x78] := rfl

example : ∃ n, ∀ fuel, n ≤ fuel → execSimple 4 Settings.default simpleSched fuel exPartial = .ret (.ok [0x78]) () :=
  C45_value (by decide) simple_delivers simple_valid simple_within rfl

/-- the second item of the array remains unread -/
def exUnread : TopC Bytes := .op (.array (.op .skip fun
  | .ok _ => .ret (.ok [])
  | .error e => .ret (.error e))) got

theorem got_passes {V : Type} : Pass fun e => got (V := V) (.error e) := fun e => ⟨e, rfl, rfl⟩

example : ∃ n, ∀ fuel, n ≤ fuel → ∃ y, execSimple 4 Settings.default simpleSched fuel exUnread = .ret (.error y) () ∧ kind y = .reader (.structure .moreElementsThanExpected) := by
  refine C45_error (by decide) simple_delivers simple_valid simple_within ?_ rfl
  unfold exUnread
  rw [PassesTop, Passes, PassesArr, Passes]
  refine ⟨⟨trivial, fun x => ?_, fun e => ⟨e, rfl, rfl⟩⟩, got_passes⟩
  dsimp only
  rw [PassesArr]
  trivial

/-- `read_name` is called twice for a member -/
def exTwice : TopC Bytes := .op (.arrayItems [] fun x => .op (.objectBorrowed x fun _ => .readName fun
  | .ok _ => .readName fun
    | .ok _ => .ret (.ok [])
    | .error e => .ret (.error e)
  | .error e => .ret (.error e)) got) got

example : ∃ n, ∀ fuel, n ≤ fuel → ∃ p, execSimple 4 Settings.default simpleSched fuel exTwice = .panic p ∧ Misused p := by
  refine C45_misuse (by decide) simple_delivers simple_valid simple_within ?_ rfl
  unfold exTwice
  rw [StopsTop, Stops]
  refine ⟨fun x => ?_, fun e => ⟨e, rfl⟩⟩
  rw [StopsVal, Stops]
  refine ⟨fun x => ?_, fun e => ⟨e, rfl⟩⟩
  rw [StopsMem]
  refine ⟨fun n => ?_, fun e => ⟨e, rfl⟩⟩
  dsimp only
  rw [StopsMem]
  refine ⟨fun n => ?_, fun e => ⟨e, rfl⟩⟩
  dsimp only
  rw [StopsMem]
  trivial

/-- The closure of a `read_seeked_multi` with an empty path is called although there are no more items; the error is the one of reading the item -/
def exNone : TopC Bytes := .op (.array (.op .skip fun
  | .ok _ => .op .skip fun
    | .ok _ => .op (.seekedMulti [] false [] fun _ => .ret (.ok [])) fun
      | .ok _ => .ret (.ok [])
      | .error e => .ret (.error e)
    | .error e => .ret (.error e)
  | .error e => .ret (.error e))) got

example : top ⟨Settings.default, 0⟩ simpleValue exNone = .err (.reader (.structure .fewerElementsThanExpected)) := rfl

/-! ## C47

`visit path v` (`Verif/Spec/SimpleReader.lean`): the values which are matched by the path, and possibly the error because of which the search ends. -/

variable {path : List MultiPiece} {one : Bool} {init : V} {f : V → ValC V}

/-- `read_seeked_multi` for the top-level value -/
def multiTop (path : List MultiPiece) (one : Bool) (init : V) (f : V → ValC V) : TopC V := .op (.seekedMulti path one init f) got

theorem top_multi : top ⟨st, 0⟩ v (multiTop path one init f) = (do
    let x ← each (fun x w => single ⟨st, path.length⟩ w (f x)) init (visit path v).1
    match (visit path v).2 with
    | some e => .err (.reader e)
    | none => if one && (visit path v).1.isEmpty then .err .noMatch else .ok x) := by
  unfold multiTop
  rw [top, SimpleReaderSpec.value, answer_assoc, show Env.inside ⟨st, 0⟩ path.length = ⟨st, path.length⟩ by unfold Env.inside; rw [Nat.zero_add]]
  refine congrArg (fun g => each (fun x w => single ⟨st, path.length⟩ w (f x)) init (visit path v).1 >>= g) (funext fun y => ?_)
  cases (visit path v).2 with
  | some e => rfl
  | none =>
    dsimp only
    split <;> rfl

/-- **C47** `read_seeked_multi` calls the closure for exactly the matched values, in this order: its result is the one of the closure, which is called for each of these
values -/
theorem C47_visits (hN : 0 < N) (hd : Delivers sched bytes none) (hv : Valid st bytes [v]) (hl : WithinLimit st v) (hm : (visit path v).2 = none) (h1 : one = true → (visit path v).1 ≠ []) {x : V}
    (hx : each (fun x w => single ⟨st, path.length⟩ w (f x)) init (visit path v).1 = .ok x) :
    ∃ n, ∀ fuel, n ≤ fuel → execSimple N st sched fuel (multiTop path one init f) = .ret (.ok x) () := by
  refine C45_value hN hd hv hl ?_
  rw [top_multi, hx, hm]
  show (if _ then _ else _) = _
  rw [if_neg]
  intro h
  rw [Bool.and_eq_true, List.isEmpty_iff] at h
  exact h1 h.1 h.2

/-- the closure records the type of the value, and does not read the value -/
def recordType (ts : List ValueType) : ValC (List ValueType) := .peek fun
  | .ok t => .ret (.ok (ts ++ [t]))
  | .error e => .ret (.error e)

/-- **C47** The types of the values for which the closure is called -/
theorem C47_types (hN : 0 < N) (hd : Delivers sched bytes none) (hv : Valid st bytes [v]) (hl : WithinLimit st v) (hm : (visit path v).2 = none) (h1 : one = true → (visit path v).1 ≠ []) :
    ∃ n, ∀ fuel, n ≤ fuel → execSimple N st sched fuel (multiTop path one [] recordType) = .ret (.ok ((visit path v).1.map typeOf)) () := by
  refine C47_visits hN hd hv hl hm h1 ?_
  have : ∀ (ws : List JVal) (ts : List ValueType), each (fun x w => single ⟨st, path.length⟩ w (recordType x)) ts ws = .ok (ts ++ ws.map typeOf) := by
    intro ws
    induction ws with
    | nil => intro ts; rw [each, List.map_nil, List.append_nil]
    | cons w ws ih =>
      intro ts
      rw [each, recordType, single, single]
      show each _ (ts ++ [typeOf w]) ws = _
      rw [ih, List.map_cons, List.append_assoc]
      rfl
  exact this _ []

/-- **C47** If the search ends because of an error (a value which is missing or has another type, or an empty array or object which is not allowed), then this error is
returned, after the closure has been called for the values in front of it -/
theorem C47_error (hN : 0 < N) (hd : Delivers sched bytes none) (hv : Valid st bytes [v]) (hl : WithinLimit st v) {e : Kind} (hm : (visit path v).2 = some e) (hp : ∀ x, PassesVal (f x)) {x : V}
    (hx : each (fun x w => single ⟨st, path.length⟩ w (f x)) init (visit path v).1 = .ok x) :
    ∃ n, ∀ fuel, n ≤ fuel → ∃ y, execSimple N st sched fuel (multiTop path one init f) = .ret (.error y) () ∧ kind y = .reader e := by
  refine C45_error hN hd hv hl ?_ ?_
  · unfold multiTop
    rw [PassesTop, Passes]
    exact ⟨hp, got_passes⟩
  · rw [top_multi, hx, hm]
    rfl

/-- **C47** If there is no match then the result depends on `at_least_one_match` -/
theorem C47_no_match (hN : 0 < N) (hd : Delivers sched bytes none) (hv : Valid st bytes [v]) (hl : WithinLimit st v) (hm : visit path v = ([], none)) (hp : ∀ x, PassesVal (f x)) :
    ∃ n, ∀ fuel, n ≤ fuel → execSimple N st sched fuel (multiTop path false init f) = .ret (.ok init) () ∧
      ∃ y, execSimple N st sched fuel (multiTop path true init f) = .ret (.error y) () ∧ kind y = .noMatch := by
  obtain ⟨n, hn⟩ := C47_visits (path := path) (one := false) (init := init) (f := f) hN hd hv hl (by rw [hm]) nofun (by rw [hm, each])
  obtain ⟨n', hn'⟩ := C45_error (c := multiTop path true init f) hN hd hv hl (by
    unfold multiTop
    rw [PassesTop, Passes]
    exact ⟨hp, got_passes⟩) (e := .noMatch) (by rw [top_multi, hm, each]; rfl)
  exact ⟨max n n', fun fuel hf => ⟨hn fuel (by omega), hn' fuel (by omega)⟩⟩

/-- `read_array` with a closure which calls `read_seeked_multi` for the first item, and then continues with `g` -/
def multiThen (path : List MultiPiece) (one : Bool) (init : V) (f : V → ValC V) (g : V → ArrC V) : TopC V := .op (.array (.op (.seekedMulti path one init f) fun r => match got r with
  | .ok x => g x
  | .error e => .ret (.error e))) got

/-- **C47** Afterwards the reader is behind the value at which the search has begun: the value is the first item of an array, and `g` continues with the other items -/
theorem C47_behind {w : JVal} {ws : List JVal} {g : V → ArrC V} (hN : 0 < N) (hd : Delivers sched bytes none) (hv : Valid st bytes [.arr (w :: ws)]) (hl : WithinLimit st (.arr (w :: ws)))
    (hm : (visit path w).2 = none) (h1 : one = true → (visit path w).1 ≠ []) {x y : V} (hx : each (fun x w => single ⟨st, path.length + 1⟩ w (f x)) init (visit path w).1 = .ok x)
    (hy : arrClosure ⟨st, 1⟩ ws (g x) = .ok (y, [])) :
    ∃ n, ∀ fuel, n ≤ fuel → execSimple N st sched fuel (multiThen path one init f g) = .ret (.ok y) () := by
  refine C45_value hN hd hv hl ?_
  unfold multiThen
  rw [top, SimpleReaderSpec.value]
  dsimp only
  rw [arrClosure, SimpleReaderSpec.value, show Env.inside (Env.inside ⟨st, 0⟩ 1) path.length = ⟨st, path.length + 1⟩ by unfold Env.inside; rw [Nat.zero_add, Nat.add_comm]]
  rw [hx, hm]
  have h2 : ¬ (one && (visit path w).1.isEmpty) = true := by
    intro h
    rw [Bool.and_eq_true, List.isEmpty_iff] at h
    exact h1 h.1 h.2
  have h3 : (do
      let x ← (Answer.ok x : Ans V)
      if (one && (visit path w).1.isEmpty) = true then .err .noMatch else pure (Got.val x) : Ans (Got V)) = .ok (.val x) := by
    show (if _ then _ else _) = _
    rw [if_neg h2]
    rfl
  dsimp only
  rw [h3]
  show (arrClosure ⟨st, 1⟩ ws (g x) >>= _) >>= _ = _
  rw [hy]
  rfl

/-! ### Examples -/

/-- the member `a` of all items of the array, and the members of the first item -/
example : visit [.allArrayItems false, .objectMember ['a']] simpleValue = ([.num ['1'], .num ['2']], none) ∧
    visit [.allArrayItems false, .optionalObjectMember ['b']] simpleValue = ([.str ['x', 'y']], none) ∧
    visit [.allArrayItems false, .objectMember ['b']] simpleValue = ([.str ['x', 'y']], some (.structure (.missingObjectMember ['b']))) ∧
    visit [.arrayItem 0, .allObjectMembers true] simpleValue = ([.num ['1'], .str ['x', 'y']], none) ∧
    visit [.arrayItem 1, .optionalObjectMember ['c']] simpleValue = ([], none) := by decide +kernel

example : ∃ n, ∀ fuel, n ≤ fuel → execSimple 4 Settings.default simpleSched fuel (multiTop [.arrayItem 0, .allObjectMembers true] true [] recordType) = .ret (.ok [.number, .string]) () :=
  C47_types (by decide) simple_delivers simple_valid simple_within rfl (fun _ => by decide)

theorem recordType_passes (ts : List ValueType) : PassesVal (recordType ts) := by
  unfold recordType
  rw [PassesVal]
  refine ⟨fun x => ?_, fun e => ⟨e, rfl, rfl⟩⟩
  dsimp only
  rw [PassesVal]
  trivial

example : ∃ n, ∀ fuel, n ≤ fuel → ∃ y, execSimple 4 Settings.default simpleSched fuel (multiTop [.allArrayItems false, .objectMember ['b']] true [] recordType) = .ret (.error y) () ∧
    kind y = .reader (.structure (.missingObjectMember ['b'])) :=
  C47_error (by decide) simple_delivers simple_valid simple_within (e := .structure (.missingObjectMember ['b'])) rfl recordType_passes (x := [.string]) rfl

example : ∃ n, ∀ fuel, n ≤ fuel → execSimple 4 Settings.default simpleSched fuel (multiTop [.arrayItem 1, .optionalObjectMember ['c']] false [] recordType) = .ret (.ok []) () ∧
    ∃ y, execSimple 4 Settings.default simpleSched fuel (multiTop [.arrayItem 1, .optionalObjectMember ['c']] true [] recordType) = .ret (.error y) () ∧ kind y = .noMatch :=
  C47_no_match (by decide) simple_delivers simple_valid simple_within rfl recordType_passes

/-- reads another item -/
def exNext (ts : List ValueType) : ArrC (List ValueType) := .peek fun
  | .ok t => .op .skip fun _ => .ret (.ok (ts ++ [t]))
  | .error e => .ret (.error e)

/-- the members of the first item; then the second item is read -/
example : ∃ n, ∀ fuel, n ≤ fuel → execSimple 4 Settings.default simpleSched fuel (multiThen [.allObjectMembers true] true [] recordType exNext) = .ret (.ok [.number, .string, .object]) () :=
  C47_behind (by decide) simple_delivers simple_valid simple_within rfl (fun _ => by decide) (x := [.number, .string]) rfl rfl

end

end Verif.Props

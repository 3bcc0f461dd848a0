import Verif.Proofs.Abs.Peek
/-! # Methods of the reader when the next token has been peeked -/

namespace Verif.Abs
open Reader Utf8 Json

section
variable {st : Settings} {c : Ctx} {pos : Pos} {p : Peeked} {r : Bytes}

theorem pio_pk : peekInternalOptional.run (stp st c pos (some p) r) = .ok (some p) (stp st c pos (some p) r) := rfl

theorem pi_pk : peekInternal.run (stp st c pos (some p) r) = .ok p (stp st c pos (some p) r) := rfl

theorem tok_plain (p : Peeked) : Plain (tokBytes p) := by
  intro b
  cases p <;> revert b <;> decide +kernel

theorem consumePeeked_run : consumePeeked.run (stp st c pos (some p) r) = .ok () (stp st c (pos.over (tokBytes p)) none r) := by
  rw [Pos.over_plain _ (tok_plain p)]
  cases p <;> rfl

/-- type of the value which starts with the token -/
def typeOf : Peeked → ValueType
  | .null => .null
  | .booleanTrue => .boolean
  | .booleanFalse => .boolean
  | .numberStart => .number
  | .stringStart => .string
  | .objectStart => .object
  | _ => .array

theorem mapPeeked_value {s : St} (h : isValue p = true) : (mapPeeked p).run s = .ok (typeOf p) s := by
  cases p <;> first | rfl | exact absurd h (by decide)

/-- check of the nesting depth -/
def tooDeep (st : Settings) (c : Ctx) : Option Nat :=
  match st.maxNestingDepth with
  | some max => if c.stack.length ≥ max then some max else none
  | none => none

theorem sev_ok {t : ValueType} {chk : Bool} (he : c.emn = false) (hv : isValue p = true) (ht : typeOf p = t) (hd : chk = true → tooDeep st c = none) :
    (startExpectedValueType t chk).run (stp st c pos (some p) r) = .ok p (stp st c (pos.over (tokBytes p)) none r) := by
  unfold startExpectedValueType
  rw [run_get, if_neg (by show ¬ c.emn = true; rw [he]; decide), M.bind_ok pi_pk, M.bind_ok (mapPeeked_value hv), run_get, if_pos (by rw [ht]; simp)]
  have : (if chk then depthExceeded (stp st c pos (some p) r) else none) = none := by
    cases chk with
    | false => rfl
    | true => exact hd rfl
  rw [this]
  dsimp only
  rw [M.bind_ok consumePeeked_run]
  rfl

theorem sev_deep {t : ValueType} {n : Nat} (he : c.emn = false) (hv : isValue p = true) (ht : typeOf p = t) (hd : tooDeep st c = some n) :
    (startExpectedValueType t true).run (stp st c pos (some p) r) =
      .err (.maxNestingDepthExceeded n (loc (stp st c pos (some p) r))) (stp st c pos (some p) r) := by
  unfold startExpectedValueType
  rw [run_get, if_neg (by show ¬ c.emn = true; rw [he]; decide), M.bind_ok pi_pk, M.bind_ok (mapPeeked_value hv), run_get, if_pos (by rw [ht]; simp)]
  have : (if true then depthExceeded (stp st c pos (some p) r) else none) = some n := hd
  rw [this]
  rfl

theorem sev_type {t : ValueType} {chk : Bool} (he : c.emn = false) (hv : isValue p = true) (ht : typeOf p ≠ t) :
    (startExpectedValueType t chk).run (stp st c pos (some p) r) =
      .err (.unexpectedValueType t (typeOf p) (loc (stp st c pos (some p) r))) (stp st c pos (some p) r) := by
  unfold startExpectedValueType
  rw [run_get, if_neg (by show ¬ c.emn = true; rw [he]; decide), M.bind_ok pi_pk, M.bind_ok (mapPeeked_value hv), run_get, if_neg (by simpa using ht)]
  rfl

theorem sev_arrayEnd {t : ValueType} {chk : Bool} (he : c.emn = false) :
    (startExpectedValueType t chk).run (stp st c pos (some .arrayEnd) r) =
      .err (.unexpectedStructure .fewerElementsThanExpected (loc (stp st c pos (some .arrayEnd) r))) (stp st c pos (some .arrayEnd) r) := by
  unfold startExpectedValueType
  rw [run_get, if_neg (by show ¬ c.emn = true; rw [he]; decide), M.bind_ok pi_pk]
  rfl

theorem sev_name {t : ValueType} {chk : Bool} {pk : Option Peeked} (he : c.emn = true) :
    (startExpectedValueType t chk).run (stp st c pos pk r) = .err (.panic (.usage .valueWhenExpectingName)) (stp st c pos pk r) := by
  unfold startExpectedValueType
  rw [run_get, if_pos (by exact he)]
  rfl

/-! ## Ends of values -/

/-- state with collected bytes -/
theorem setAcc_stp_nil {pk : Option Peeked} : setAcc (stp st c pos pk r) [] = stp st c pos pk r := rfl

theorem lastName_append (done : List Mem) (m : Mem) : lastName (done ++ [m]) = m.name.text := by
  simp [lastName]

theorem onValueEnd_run {l : Lead} {v : Cst} {a : Bytes} (h : c.Slot l) :
    onValueEnd.run (setAcc (stp st c pos none r) a) = .ok () (setAcc (stp st (c.add l v) pos none r) a) := by
  unfold onValueEnd
  rw [run_get]
  rcases ht : st.trackPath with _ | _ <;>
  · cases c <;> cases l <;> first | exact h.elim | skip
    all_goals
      simp [isInArray, isInObject, stp, setAcc, Ctx.stack, Ctx.add, Ctx.emn, Ctx.isEmpty, Ctx.path, ht, lastName_append]

theorem onValueEnd_run0 {l : Lead} {v : Cst} (h : c.Slot l) :
    onValueEnd.run (stp st c pos none r) = .ok () (stp st (c.add l v) pos none r) := onValueEnd_run (a := []) h

theorem onContainerEnd_arr {up : Ctx} {l : Lead} {d : List (Sep × Cst)} {v : Cst} (h : up.Slot l) :
    onContainerEnd.run (stp st (.arr up l d) pos none r) = .ok () (stp st (up.add l v) pos none r) := by
  unfold onContainerEnd
  refine (M.bind_ok (a := ()) rfl).trans ?_
  unfold onValueEnd
  rw [run_get]
  rcases ht : st.trackPath with _ | _ <;>
  · cases up <;> cases l <;> first | exact h.elim | skip
    all_goals
      simp [isInArray, isInObject, stp, Ctx.stack, Ctx.add, Ctx.emn, Ctx.isEmpty, Ctx.path, ht, lastName_append]

theorem onContainerEnd_obj {up : Ctx} {l : Lead} {d : List Mem} {v : Cst} (h : up.Slot l) :
    onContainerEnd.run ({ stp st (.obj up l d) pos none r with expectsMemberName := false }) = .ok () (stp st (up.add l v) pos none r) := by
  unfold onContainerEnd
  refine (M.bind_ok (a := ()) rfl).trans ?_
  unfold onValueEnd
  rw [run_get]
  rcases ht : st.trackPath with _ | _ <;>
  · cases up <;> cases l <;> first | exact h.elim | skip
    all_goals
      simp [isInArray, isInObject, stp, Ctx.stack, Ctx.add, Ctx.emn, Ctx.isEmpty, Ctx.path, ht, lastName_append]

/-! ## Arrays and objects -/

theorem onContainerStart_ok {t : ValueType} {v : StackValue} (he : c.emn = false) (hv : isValue p = true) (ht : typeOf p = t) (hd : tooDeep st c = none) :
    (onContainerStart t v).run (stp st c pos (some p) r) =
      .ok () { stp st c (pos.over (tokBytes p)) none r with stack := v :: c.stack, isEmpty := true } := by
  unfold onContainerStart
  rw [M.bind_ok (sev_ok he hv ht fun _ => hd)]
  rfl

theorem beginArray_ok {l : Lead} (h : c.Slot l) (hd : tooDeep st c = none) :
    beginArray.run (stp st c pos (some .arrayStart) r) = .ok () (stp st (.arr c l []) (pos.over [0x5B]) none r) := by
  have he : c.emn = false := by cases c <;> cases l <;> first | rfl | exact h.elim
  unfold beginArray
  rw [M.bind_ok (onContainerStart_ok (t := .array) he rfl rfl hd)]
  show Res.ok () _ = Res.ok () _
  simp only [stp, Ctx.stack, Ctx.isEmpty, Ctx.emn, Ctx.path, List.isEmpty_nil]
  rcases st.trackPath with _ | _ <;> rfl

theorem beginObject_ok {l : Lead} (h : c.Slot l) (hd : tooDeep st c = none) :
    beginObject.run (stp st c pos (some .objectStart) r) = .ok () (stp st (.obj c l []) (pos.over [0x7B]) none r) := by
  have he : c.emn = false := by cases c <;> cases l <;> first | rfl | exact h.elim
  unfold beginObject
  rw [M.bind_ok (onContainerStart_ok (t := .object) he rfl rfl hd)]
  show Res.ok () _ = Res.ok () _
  simp only [stp, Ctx.stack, Ctx.isEmpty, Ctx.emn, Ctx.path, List.isEmpty_nil]
  rcases st.trackPath with _ | _ <;> rfl

theorem endArray_ok {up : Ctx} {l : Lead} {d : List (Sep × Cst)} {v : Cst} (h : up.Slot l) :
    endArray.run (stp st (.arr up l d) pos (some .arrayEnd) r) = .ok () (stp st (up.add l v) (pos.over [0x5D]) none r) := by
  unfold endArray
  rw [run_get, isInArray_stp, if_neg (by exact Bool.false_ne_true), M.bind_ok pi_pk, if_neg (by decide), M.bind_ok consumePeeked_run]
  exact onContainerEnd_arr h

theorem endArray_more {up : Ctx} {l : Lead} {d : List (Sep × Cst)} (hp : p ≠ .arrayEnd) :
    endArray.run (stp st (.arr up l d) pos (some p) r) = .err (.unexpectedStructure .moreElementsThanExpected (loc (stp st (.arr up l d) pos (some p) r)))
      (stp st (.arr up l d) pos (some p) r) := by
  unfold endArray
  rw [run_get, isInArray_stp, if_neg (by exact Bool.false_ne_true), M.bind_ok pi_pk, if_pos (by simpa using hp)]
  rfl

theorem endObject_ok {up : Ctx} {l : Lead} {d : List Mem} {v : Cst} (h : up.Slot l) :
    endObject.run (stp st (.obj up l d) pos (some .objectEnd) r) = .ok () (stp st (up.add l v) (pos.over [0x7D]) none r) := by
  unfold endObject
  rw [run_get, isInObject_stp, if_neg (by exact Bool.false_ne_true), if_neg (by exact Bool.false_ne_true), M.bind_ok pi_pk, if_neg (by decide), M.bind_ok consumePeeked_run]
  exact (M.bind_ok (a := ()) rfl).trans (onContainerEnd_obj h)

theorem endObject_more {up : Ctx} {l : Lead} {d : List Mem} (hp : p ≠ .objectEnd) :
    endObject.run (stp st (.obj up l d) pos (some p) r) = .err (.unexpectedStructure .moreElementsThanExpected (loc (stp st (.obj up l d) pos (some p) r)))
      (stp st (.obj up l d) pos (some p) r) := by
  unfold endObject
  rw [run_get, isInObject_stp, if_neg (by exact Bool.false_ne_true), if_neg (by exact Bool.false_ne_true), M.bind_ok pi_pk, if_pos (by simpa using hp)]
  rfl

/-! ## Simple values -/

theorem nextNull_ok {l : Lead} (h : c.Slot l) :
    nextNull.run (stp st c pos (some .null) r) = .ok () (stp st (c.add l .null) (pos.over nullBytes) none r) := by
  have he : c.emn = false := by cases c <;> cases l <;> first | rfl | exact h.elim
  unfold nextNull
  rw [M.bind_ok (sev_ok (t := .null) (chk := false) he rfl rfl Bool.noConfusion)]
  exact onValueEnd_run0 h

theorem nextBool_ok {l : Lead} {b : Bool} (h : c.Slot l) :
    nextBool.run (stp st c pos (some (if b then .booleanTrue else .booleanFalse)) r) =
      .ok b (stp st (c.add l (.bool b)) (pos.over (if b then trueBytes else falseBytes)) none r) := by
  have he : c.emn = false := by cases c <;> cases l <;> first | rfl | exact h.elim
  unfold nextBool
  cases b
  · simp only [Bool.false_eq_true, if_false]
    rw [M.bind_ok (sev_ok (p := .booleanFalse) (t := .boolean) (chk := false) he rfl rfl Bool.noConfusion)]
    refine (M.bind_ok (a := false) rfl).trans ?_
    rw [M.bind_ok (onValueEnd_run0 (v := .bool false) h)]
    rfl
  · simp only [if_true]
    rw [M.bind_ok (sev_ok (p := .booleanTrue) (t := .boolean) (chk := false) he rfl rfl Bool.noConfusion)]
    refine (M.bind_ok (a := true) rfl).trans ?_
    rw [M.bind_ok (onValueEnd_run0 (v := .bool true) h)]
    rfl

/-! ## Strings -/

theorem Ctx.Slot.emn {l : Lead} (h : c.Slot l) : c.emn = false := by
  cases c <;> cases l <;> first | rfl | exact h.elim

theorem str_body_noBreak {x : Str} (hx : x.Ok) : NoBreak (x.body ++ [0x22]) := (itemsAre_noBreak hx).append plain_quote.noBreak

theorem over_str (pos : Pos) {x : Str} (hx : x.Ok) : (pos.over [0x22]).over (x.body ++ [0x22]) = pos.over x.bytes :=
  Pos.over_over pos (a := [0x22]) (b := x.body ++ [0x22]) (str_body_noBreak hx).right

theorem tok_str : tokBytes .stringStart = [0x22] := rfl

theorem nextString_ok {l : Lead} {x : Str} (h : c.Slot l) (hx : x.Ok) :
    nextString.run (stp st c pos (some .stringStart) (x.body ++ 0x22 :: r)) = .ok x.text (stp st (c.add l (.str x)) (pos.over x.bytes) none r) := by
  unfold nextString
  rw [M.bind_ok (sev_ok (t := .string) (chk := false) h.emn rfl rfl Bool.noConfusion), M.bind_ok (readString_complete hx rfl), M.bind_ok (getString_run rfl), mv_stp, setAcc_setAcc,
    M.bind_ok (onValueEnd_run (a := []) (v := .str x) h), tok_str, over_str pos hx]
  rfl

theorem nextStr_ok {l : Lead} {x : Str} (h : c.Slot l) (hx : x.Ok) :
    nextStr.run (stp st c pos (some .stringStart) (x.body ++ 0x22 :: r)) = .ok x.text (stp st (c.add l (.str x)) (pos.over x.bytes) none r) := by
  unfold nextStr
  rw [M.bind_ok (sev_ok (t := .string) (chk := false) h.emn rfl rfl Bool.noConfusion), M.bind_ok (readString_complete hx rfl), mv_stp, M.bind_ok (onValueEnd_run (v := .str x) h), tok_str, over_str pos hx]
  exact getStr_run rfl

/-- the part of `skip_value` which skips a string -/
theorem skipString_ok {l : Lead} {x : Str} (h : c.Slot l) (hx : x.Ok) :
    (do let _ ← startExpectedValueType .string false; skipAllStringBytes; onValueEnd : R AbsSrc Unit).run (stp st c pos (some .stringStart) (x.body ++ 0x22 :: r)) =
      .ok () (stp st (c.add l (.str x)) (pos.over x.bytes) none r) := by
  rw [M.bind_ok (sev_ok (t := .string) (chk := false) h.emn rfl rfl Bool.noConfusion), M.bind_ok (skipAll_complete hx rfl), mv_stp, tok_str, over_str pos hx]
  exact onValueEnd_run0 h

/-! ## Names -/

theorem hasNext_obj {up : Ctx} {l : Lead} {d : List Mem} (ha : (Ctx.obj up l d).Allows p) :
    hasNext.run (stp st (.obj up l d) pos (some p) r) = .ok (!isEnd p) (stp st (.obj up l d) pos (some p) r) := by
  rcases ha with rfl | rfl <;> rfl

theorem hasNext_arr {up : Ctx} {l : Lead} {d : List (Sep × Cst)} (ha : (Ctx.arr up l d).Allows p) :
    hasNext.run (stp st (.arr up l d) pos (some p) r) = .ok (!isEnd p) (stp st (.arr up l d) pos (some p) r) := by
  rcases ha with ha | rfl
  · cases p <;> first | rfl | exact absurd ha (by decide)
  · rfl

theorem hasNext_top {d : List (Ws × Cst)} (hd : d ≠ []) (hm : st.allowMultipleTopLevel = true) (ha : isValue p = true) :
    hasNext.run (stp st (.top d) pos (some p) r) = .ok true (stp st (.top d) pos (some p) r) := by
  unfold hasNext
  rw [run_get, if_neg (by exact Bool.false_ne_true)]
  rw [M.bind_ok (a := some p) (s' := stp st (.top d) pos (some p) r)]
  · cases p <;> first | rfl | exact absurd ha (by decide)
  · rw [if_pos (by rfl), if_neg (by simpa [stp, Ctx.isEmpty] using hd), if_neg (by simp [stp, hm])]
    exact pio_pk

/-- behind the opening quote of a name -/
def nameState (st : Settings) (up : Ctx) (l : Lead) (d : List Mem) (pos : Pos) (r : Bytes) : St :=
  { stp st (.obj up l d) pos none r with expectsMemberName := false }

theorem beforeName_ok {up : Ctx} {l : Lead} {d : List Mem} :
    beforeName.run (stp st (.obj up l d) pos (some .nameStart) r) = .ok () (nameState st up l d (pos.over [0x22]) r) := by
  unfold beforeName
  rw [run_get, if_neg (by exact Bool.false_ne_true), if_neg (by exact Bool.false_ne_true), M.bind_ok (hasNext_obj (.inl rfl)), if_pos (by rfl)]
  refine (M.bind_ok (a := ()) rfl).trans ?_
  rw [Pos.over_plain _ plain_quote]
  rfl

theorem beforeName_end {up : Ctx} {l : Lead} {d : List Mem} :
    beforeName.run (stp st (.obj up l d) pos (some .objectEnd) r) =
      .err (.unexpectedStructure .fewerElementsThanExpected (loc (stp st (.obj up l d) pos (some .objectEnd) r))) (stp st (.obj up l d) pos (some .objectEnd) r) := by
  unfold beforeName
  rw [run_get, if_neg (by exact Bool.false_ne_true), if_neg (by exact Bool.false_ne_true), M.bind_ok (hasNext_obj (.inr rfl))]
  rfl

theorem setPathName_run {up : Ctx} {l : Lead} {d : List Mem} {x : Str} {sp : Sep} {a : Bytes} :
    (setPathName x.text).run (setAcc (nameState st up l d pos r) a) = .ok () (setAcc (stp st (.val up l d sp x) pos none r) a) := by
  unfold setPathName
  rw [run_get]
  rcases ht : st.trackPath with _ | _ <;> simp [nameState, setAcc, stp, Ctx.stack, Ctx.isEmpty, Ctx.emn, Ctx.path, ht]

theorem mv_nameState {up : Ctx} {l : Lead} {d : List Mem} {bs r' : Bytes} :
    mv (nameState st up l d pos r) bs r' = nameState st up l d (pos.over bs) r' := rfl

theorem nextNameOwned_ok {up : Ctx} {l : Lead} {d : List Mem} {x : Str} {sp : Sep} (hx : x.Ok) :
    nextNameOwned.run (stp st (.obj up l d) pos (some .nameStart) (x.body ++ 0x22 :: r)) =
      .ok x.text (stp st (.val up l d sp x) (pos.over x.bytes) none r) := by
  unfold nextNameOwned
  rw [M.bind_ok beforeName_ok, M.bind_ok (readString_complete hx rfl), M.bind_ok (getString_run rfl), mv_nameState, setAcc_setAcc,
    M.bind_ok (setPathName_run (sp := sp) (a := [])), over_str pos hx]
  rfl

theorem nextName_ok {up : Ctx} {l : Lead} {d : List Mem} {x : Str} {sp : Sep} (hx : x.Ok) :
    nextName.run (stp st (.obj up l d) pos (some .nameStart) (x.body ++ 0x22 :: r)) =
      .ok x.text (stp st (.val up l d sp x) (pos.over x.bytes) none r) := by
  unfold nextName
  rw [M.bind_ok beforeName_ok, M.bind_ok (readString_complete hx rfl), mv_nameState, over_str pos hx, run_get]
  cases ht : st.trackPath with
  | true =>
    rw [if_pos (by simp [nameState, setAcc, stp, ht])]
    refine (M.bind_ok (a := ()) (s' := setAcc (stp st (.val up l d sp x) (pos.over x.bytes) none r) (enc x.text)) ?_).trans (getStr_run rfl)
    exact (M.bind_ok (getStrPeek_run (cs := x.text) rfl)).trans setPathName_run
  | false =>
    rw [if_neg (by simp [nameState, setAcc, stp, ht])]
    refine (M.bind_ok (a := ()) rfl).trans ((getStr_run rfl).trans ?_)
    show Res.ok _ _ = Res.ok _ _
    simp [nameState, setAcc, stp, ht, Ctx.stack, Ctx.isEmpty, Ctx.emn]

theorem skipName_ok {up : Ctx} {l : Lead} {d : List Mem} {x : Str} {sp : Sep} (hx : x.Ok) :
    skipName.run (stp st (.obj up l d) pos (some .nameStart) (x.body ++ 0x22 :: r)) =
      .ok () (stp st (.val up l d sp x) (pos.over x.bytes) none r) := by
  unfold skipName
  rw [M.bind_ok beforeName_ok, run_get]
  cases ht : st.trackPath with
  | true =>
    rw [if_pos (by simp [nameState, stp, ht])]
    rw [M.bind_ok (readString_complete hx rfl), M.bind_ok (getString_run rfl), mv_nameState, setAcc_setAcc, over_str pos hx]
    exact setPathName_run (sp := sp) (a := [])
  | false =>
    rw [if_neg (by simp [nameState, stp, ht]), skipAll_complete hx rfl, mv_nameState, over_str pos hx]
    simp [nameState, stp, ht, Ctx.stack, Ctx.isEmpty, Ctx.emn]

/-! ## Numbers -/

/-- The number is not supported by the restriction -/
def Restricted (st : Settings) (bs : Bytes) : Prop := st.restrictNumberValues = true ∧ (bs.length > 100 ∨ ∃ k, ExpDigits bs k ∧ k > 2)

theorem finishNumber_run {l : Lead} {bs a : Bytes} {s : St} (h : c.Slot l) (hn : IsNumber bs) (hr : SepOk r) (hs : s = setAcc (stp st c pos none r) a) :
    (finishNumber bs.length).run s = .ok () (setAcc (stp st (c.add l (.num bs)) (pos.over bs) none r) a) := by
  subst hs
  unfold finishNumber
  rw [M.bind_ok (advance_plain _ (isNumber_plain hn) rfl), setAcc_mv, mv_stp, M.bind_ok (verifyValueSeparator_ok rfl hr)]
  exact onValueEnd_run h

theorem asciiText_enc {bs : Bytes} (h : Plain bs) : enc (asciiText bs) = bs := by
  induction bs with
  | nil => rfl
  | cons b bs ih =>
    show String.utf8EncodeChar _ ++ enc (asciiText bs) = _
    rw [encodeChar_byte (h b (by simp)).1, ih fun x hx => h x (by simp [hx])]
    rfl

theorem readNumber_run {l : Lead} {bs : Bytes} {rq : Bool} (h : c.Slot l) (hn : IsNumber bs) (hr : SepOk r) (hx : ¬ Restricted st bs) :
    (readNumberBytes rq).run (stp st c pos (some .numberStart) (bs ++ r)) = .ok () (setAcc (stp st (c.add l (.num bs)) (pos.over bs) none r) bs) := by
  unfold readNumberBytes
  obtain ⟨k, hk⟩ := IsNumber.expDigits hn
  rw [M.bind_ok (sev_ok (t := .number) (chk := false) h.emn rfl rfl Bool.noConfusion), M.bind_ok (collectNumber_complete rfl hk rfl hr.numStop)]
  dsimp only
  rw [run_get, if_neg, M.bind_ok (a := ()) (s' := setAcc (stp st c pos none r) bs) rfl]
  · exact finishNumber_run h hn hr rfl
  · intro hc
    simp only [Bool.and_eq_true, Bool.or_eq_true, decide_eq_true_eq] at hc
    exact hx ⟨hc.1, hc.2.symm.imp id fun h => ⟨k, hk, h⟩⟩

theorem readNumber_restricted {bs : Bytes} {rq : Bool} (he : c.emn = false) (hn : IsNumber bs) (hr : JsonNumber.NumStop r) (hx : Restricted st bs) :
    (readNumberBytes rq).run (stp st c pos (some .numberStart) (bs ++ r)) =
      .err (.unsupportedNumberValue (asciiText bs) (loc (stp st c pos none r))) (stp st c pos none r) := by
  unfold readNumberBytes
  obtain ⟨k, hk⟩ := IsNumber.expDigits hn
  rw [M.bind_ok (sev_ok (t := .number) (chk := false) he rfl rfl Bool.noConfusion), M.bind_ok (collectNumber_complete rfl hk rfl hr)]
  dsimp only
  rw [run_get, if_pos, M.bind_ok (a := ()) (s' := setAcc (stp st c pos none r) bs) rfl,
    M.bind_ok (getString_run (cs := asciiText bs) (asciiText_enc (isNumber_plain hn)).symm)]
  · rfl
  · simp only [Bool.and_eq_true, Bool.or_eq_true, decide_eq_true_eq]
    refine ⟨hx.1, hx.2.symm.imp (fun h => ?_) id⟩
    obtain ⟨k', hk', h⟩ := h
    rwa [hk.unique hk']

theorem nextNumberAsString_ok {l : Lead} {bs : Bytes} (h : c.Slot l) (hn : IsNumber bs) (hr : SepOk r) (hx : ¬ Restricted st bs) :
    nextNumberAsString.run (stp st c pos (some .numberStart) (bs ++ r)) = .ok (asciiText bs) (stp st (c.add l (.num bs)) (pos.over bs) none r) := by
  unfold nextNumberAsString
  rw [M.bind_ok (readNumber_run h hn hr hx)]
  exact getString_run (cs := asciiText bs) (asciiText_enc (isNumber_plain hn)).symm

theorem nextNumberAsStr_ok {l : Lead} {bs : Bytes} (h : c.Slot l) (hn : IsNumber bs) (hr : SepOk r) (hx : ¬ Restricted st bs) :
    nextNumberAsStr.run (stp st c pos (some .numberStart) (bs ++ r)) = .ok (asciiText bs) (stp st (c.add l (.num bs)) (pos.over bs) none r) := by
  unfold nextNumberAsStr
  rw [M.bind_ok (readNumber_run h hn hr hx)]
  exact getStr_run (cs := asciiText bs) (asciiText_enc (isNumber_plain hn)).symm

theorem skipNumber_ok {l : Lead} {bs : Bytes} (h : c.Slot l) (hn : IsNumber bs) (hr : SepOk r) :
    skipNumber.run (stp st c pos (some .numberStart) (bs ++ r)) = .ok () (stp st (c.add l (.num bs)) (pos.over bs) none r) := by
  unfold skipNumber
  obtain ⟨k, hk⟩ := IsNumber.expDigits hn
  rw [M.bind_ok (sev_ok (t := .number) (chk := false) h.emn rfl rfl Bool.noConfusion), M.bind_ok (skipNumberBytes_complete rfl hk rfl hr.numStop)]
  exact finishNumber_run (a := []) h hn hr rfl

end
end Verif.Abs

import Verif.Spec.Streaming
/-!
# Which methods use the value buffer

Two sources on the same state which agree on `peekByte`, `skipPeekedByte` (and the fuel) but not necessarily on the operations of the value reader.
-/

namespace Verif.Reader

/-- state after a call -/
def stAfter {ε S α : Type} : Res ε S α → S
  | .ok _ s => s
  | .err _ s => s

/-- the same result in all states which satisfy the invariant, which is kept -/
def Same {ε S α : Type} (I : S → Prop) (m m' : M ε S α) : Prop := ∀ s, I s → m.run s = m'.run s ∧ I (stAfter (m.run s))

namespace Same
section
variable {ε S α β : Type} {I : S → Prop}

protected theorem pure (a : α) : Same (ε := ε) I (pure a) (pure a) := fun _ h => ⟨rfl, h⟩

protected theorem fail {e : ε} : Same (α := α) I (M.fail e) (M.fail e) := fun _ h => ⟨rfl, h⟩

protected theorem bind {m m' : M ε S α} {f f' : α → M ε S β} (h1 : Same I m m') (h2 : ∀ a, Same I (f a) (f' a)) : Same I (m >>= f) (m' >>= f') := by
  intro s hs
  obtain ⟨h3, h4⟩ := h1 s hs
  rw [M.run_bind, M.run_bind, ← h3]
  cases h5 : m.run s with
  | ok a s' => rw [h5] at h4; exact h2 a s' h4
  | err e s' => rw [h5] at h4; exact ⟨rfl, h4⟩

protected theorem get {f f' : S → M ε S β} (h : ∀ s, I s → Same I (f s) (f' s)) : Same I (M.get >>= f) (M.get >>= f') := fun s hs => h s hs s hs

protected theorem set {s : S} (h : I s) : Same (ε := ε) I (M.set s) (M.set s) := fun _ _ => ⟨rfl, h⟩

protected theorem modify {f : S → S} (h : ∀ s, I s → I (f s)) : Same (ε := ε) I (M.modify f) (M.modify f) := fun s hs => ⟨rfl, h s hs⟩

protected theorem ite {c : Prop} [Decidable c] {m1 m2 m1' m2' : M ε S α} (h1 : Same I m1 m1') (h2 : Same I m2 m2') : Same I (if c then m1 else m2) (if c then m1' else m2') := by
  split
  · exact h1
  · exact h2

theorem run {m m' : M ε S α} (h : ∀ s, I s → m.run s = m'.run s) (h2 : ∀ s, I s → I (stAfter (m.run s))) : Same I m m' := fun s hs => ⟨h s hs, h2 s hs⟩

end

section
variable {σ α : Type} {I : RState σ → Prop}

theorem syn {k : SyntaxKind} : Same I (syntaxErr k : R σ α) (syntaxErr k) := fun _ h => ⟨rfl, h⟩
theorem struct {k : StructureKind} : Same I (structureErr k : R σ α) (structureErr k) := fun _ h => ⟨rfl, h⟩
theorem io {k : IoErr} : Same I (ioErr k : R σ α) (ioErr k) := fun _ h => ⟨rfl, h⟩
theorem usage {k : UsagePanic} : Same I (usagePanic k : R σ α) (usagePanic k) := fun _ h => ⟨rfl, h⟩
theorem internal {k : InternalPanic} : Same I (internalPanic k : R σ α) (internalPanic k) := fun _ h => ⟨rfl, h⟩
theorem unwrap {o : Option α} : Same I (unwrap o : R σ α) (Reader.unwrap o) := by
  cases o
  · exact fun _ h => ⟨rfl, h⟩
  · exact fun _ h => ⟨rfl, h⟩

end
end Same

/-- combine the rules -/
macro "same1" : tactic => `(tactic| first
  | (with_reducible assumption) | (with_reducible exact Same.pure _) | (with_reducible exact Same.syn) | (with_reducible exact Same.struct)
  | (with_reducible exact Same.io) | (with_reducible exact Same.usage) | (with_reducible exact Same.internal) | (with_reducible exact Same.unwrap) | (with_reducible exact Same.fail)
  | (with_reducible refine Same.get fun _ _ => ?_) | (with_reducible refine Same.bind ?_ fun _ => ?_) | (with_reducible refine Same.ite ?_ ?_) | split | (show Same _ _ _; dsimp only))

macro "same" : tactic => `(tactic| repeat (any_goals same1))

/-! ## Numbers -/

section
open JsonNumber
variable {ε S : Type} {I : S → Prop} {next next' : M ε S (Option UInt8)} (hn : Same I next next') {oof : ε}
include hn

theorem same_digits : ∀ n, Same I (consumeDigits next oof n) (consumeDigits next' oof n)
  | 0 => .fail
  | n + 1 => by
    have := same_digits n
    unfold consumeDigits; same

theorem same_expDigits : ∀ n c, Same I (consumeExpDigits next oof n c) (consumeExpDigits next' oof n c)
  | 0, _ => .fail
  | n + 1, c => by
    have := same_expDigits n
    unfold consumeExpDigits; same <;> exact this _

omit hn in
theorem same_finish {c : Nat} {b : UInt8} : Same I (finish c b : M ε S _) (finish c b) := by unfold finish; same

theorem same_exponentDigits {n : Nat} {b : UInt8} : Same I (exponentDigits next oof n b) (exponentDigits next' oof n b) := by
  unfold exponentDigits; same <;> first | exact same_expDigits hn _ _ | exact same_finish

theorem same_exponentPart {n : Nat} {b : UInt8} : Same I (exponentPart next oof n b) (exponentPart next' oof n b) := by
  unfold exponentPart; same
  · exact same_exponentDigits hn
  · exact same_exponentDigits hn
  · exact same_finish

theorem same_fractionPart {n : Nat} {b : UInt8} : Same I (fractionPart next oof n b) (fractionPart next' oof n b) := by
  unfold fractionPart; same
  · exact same_digits hn _
  · exact same_exponentPart hn
  · exact same_exponentPart hn

theorem same_integerPart {n : Nat} {b : UInt8} : Same I (integerPart next oof n b) (integerPart next' oof n b) := by
  unfold integerPart; same
  · exact same_digits hn _
  · exact same_fractionPart hn
  · exact same_fractionPart hn

theorem same_jsonNumber {n : Nat} {b : UInt8} : Same I (consumeJsonNumber next oof n b) (consumeJsonNumber next' oof n b) := by
  unfold consumeJsonNumber; same
  · exact same_integerPart hn
  · exact same_integerPart hn

end

/-! ## Methods -/

/-- the sources agree on the operations which do not belong to the value reader -/
structure Agree {σ : Type} (i j : ByteSource σ) : Prop where
  peekByte : @ByteSource.peekByte σ i = @ByteSource.peekByte σ j
  skipPeekedByte : @ByteSource.skipPeekedByte σ i = @ByteSource.skipPeekedByte σ j
  remaining : @ByteSource.remaining σ i = @ByteSource.remaining σ j

/-- the nesting depth limit is respected -/
def DepthOk {σ : Type} (s : RState σ) : Prop := ∀ max, s.settings.maxNestingDepth = some max → s.stack.length ≤ max

/-- `J` holds for the source, if `p` then no path is tracked, and the settings are `st` -/
def NoPath {σ : Type} (J : σ → Prop) (st : Settings) (p : Bool) (s : RState σ) : Prop := (p = true → s.path = none) ∧ J s.src ∧ DepthOk s ∧ s.settings = st

/-- `J` is kept by the operations which do not belong to the value reader -/
structure Keeps {σ : Type} (i : ByteSource σ) (J : σ → Prop) : Prop where
  peekByte : ∀ s, J s → J (stAfter ((@ByteSource.peekByte σ i).run s))
  skipPeekedByte : ∀ s, J s → J (stAfter ((@ByteSource.skipPeekedByte σ i).run s))

section
variable {σ : Type} {i j : ByteSource σ} {J : σ → Prop} {st : Settings} (h : Agree i j ∧ Keeps i J) {p : Bool}
include h

theorem fuel_eq (s : RState σ) : @fuel σ i s = @fuel σ j s := by
  unfold fuel
  rw [h.1.remaining]

omit h in
theorem same_liftS {α : Type} {m m' : M SrcErr σ α} (h : m = m') (hj : ∀ s, J s → J (stAfter (m.run s))) : Same (NoPath J st p) (liftS m) (liftS m') := by
  subst h
  intro s hs
  refine ⟨rfl, ?_⟩
  obtain ⟨h1, h2, h3, h4⟩ := hs
  have h5 := hj _ h2
  unfold liftS
  dsimp only
  cases h6 : m.run s.src with
  | ok a s' => rw [h6] at h5; exact ⟨h1, h5, h3, h4⟩
  | err e s' => rw [h6] at h5; cases e <;> exact ⟨h1, h5, h3, h4⟩

theorem same_peekByte : Same (NoPath J st p) (@peekByte σ i) (@peekByte σ j) := same_liftS h.1.peekByte h.2.peekByte

theorem same_skip : Same (NoPath J st p) (@skipPeekedByte σ i) (@skipPeekedByte σ j) := same_liftS h.1.skipPeekedByte h.2.skipPeekedByte

omit h in
theorem same_adv {c b : Nat} : Same (NoPath J st p) (advance c b : R σ _) (advance c b) := .modify fun _ h => h

theorem same_readByte {k : SyntaxKind} : Same (NoPath J st p) (@readByte σ i k) (@readByte σ j k) := by
  have := same_peekByte h (st := st) (p := p); have := same_skip h (st := st) (p := p)
  unfold readByte; same

omit h in
theorem same_checkValid {o : Option Bool} {bs : Bytes} : Same (NoPath J st p) (checkValid o bs : R σ _) (checkValid o bs) := by unfold checkValid; same

theorem same_multibyte {b : UInt8} : Same (NoPath J st p) (readUtf8Multibyte (@readByte σ i) b) (readUtf8Multibyte (@readByte σ j) b) := by
  unfold readUtf8Multibyte; same <;> first | exact same_readByte h | exact same_checkValid

theorem same_hex : Same (NoPath J st p) (readHexByte (@readByte σ i)) (readHexByte (@readByte σ j)) := by
  unfold readHexByte parseHexDigit; same; exact same_readByte h

theorem same_escape : Same (NoPath J st p) (readUnicodeEscape (@readByte σ i)) (readUnicodeEscape (@readByte σ j)) := by
  have := same_hex h (st := st) (p := p)
  unfold readUnicodeEscape; same

omit h in
theorem same_escapedChar {c n : Nat} : Same (NoPath J st p) (escapedChar c n : R σ _) (escapedChar c n) := by unfold escapedChar; same

theorem same_escapeChar : Same (NoPath J st p) (readUnicodeEscapeChar (@readByte σ i)) (readUnicodeEscapeChar (@readByte σ j)) := by
  have := same_escape h (st := st) (p := p)
  have h2 : ∀ n, Same (NoPath J st p) (readLowSurrogate (@readByte σ i) n) (readLowSurrogate (@readByte σ j) n) := by
    intro n
    unfold readLowSurrogate; same; exact same_escapedChar
  unfold readUnicodeEscapeChar; same <;> with_reducible first | exact same_readByte h | exact h2 _ | exact same_escapedChar

theorem same_skipToByte {b : UInt8} {cr : Bool} : Same (NoPath J st p) (@skipToByte σ i b cr) (@skipToByte σ j b cr) := by
  have := same_multibyte h (st := st) (p := p) (b := b)
  unfold skipToByte; same
  · exact .modify fun _ h => h
  · exact .modify fun _ h => h
  · exact .modify fun _ h => h
  · exact same_adv
  · exact same_adv

theorem same_skipToLoop {stop : UInt8 → Bool} {k : Option SyntaxKind} : ∀ n cr, Same (NoPath J st p) (@skipToLoop σ i stop k n cr) (@skipToLoop σ j stop k n cr)
  | 0, _ => .fail
  | n + 1, cr => by
    have := same_peekByte h (st := st) (p := p); have := same_skip h (st := st) (p := p)
    unfold skipToLoop; same
    · exact same_skipToByte h
    · exact same_skipToLoop n _

theorem same_skipTo {stop : UInt8 → Bool} {k : Option SyntaxKind} : Same (NoPath J st p) (@skipTo σ i stop k) (@skipTo σ j stop k) := by
  unfold skipTo; same; rw [fuel_eq h]; exact same_skipToLoop h _ _

theorem same_block : ∀ n, Same (NoPath J st p) (@skipToBlockCommentEnd σ i n) (@skipToBlockCommentEnd σ j n)
  | 0 => .fail
  | n + 1 => by
    have := same_block n
    have := same_peekByte h (st := st) (p := p); have := same_skip h (st := st) (p := p); have := @same_adv σ J st p 1 1
    unfold skipToBlockCommentEnd; same
    exact same_skipTo h

theorem same_comment {k : Option SyntaxKind} : Same (NoPath J st p) (@skipComment σ i k) (@skipComment σ j k) := by
  have := same_skip h (st := st) (p := p); have := @same_adv σ J st p 1 1
  unfold skipComment skipToLineCommentEnd; same
  · exact same_readByte h
  · rw [fuel_eq h]; exact same_block h _
  · exact same_skipTo h

theorem same_wsLoop {k : Option SyntaxKind} : ∀ n, Same (NoPath J st p) (@skipWhitespaceLoop σ i k n) (@skipWhitespaceLoop σ j k n)
  | 0 => .fail
  | n + 1 => by
    have := same_wsLoop (k := k) n
    have := same_peekByte h (st := st) (p := p)
    unfold skipWhitespaceLoop; same
    · exact same_skipTo h
    · exact same_comment h

theorem same_ws {k : Option SyntaxKind} : Same (NoPath J st p) (@skipWhitespace σ i k) (@skipWhitespace σ j k) := by
  unfold skipWhitespace; same; rw [fuel_eq h]; exact same_wsLoop h _

theorem same_ws' {k : SyntaxKind} : Same (NoPath J st p) (@skipWhitespaceNoEof σ i k) (@skipWhitespaceNoEof σ j k) := by
  have := same_ws h (st := st) (p := p) (k := some k)
  unfold skipWhitespaceNoEof; same

theorem same_separator {k : SyntaxKind} : Same (NoPath J st p) (@verifyValueSeparator σ i k) (@verifyValueSeparator σ j k) := by
  have := same_peekByte h (st := st) (p := p)
  unfold verifyValueSeparator; same

theorem same_lit {bs : Bytes} : Same (NoPath J st p) (@consumeLiteral σ i bs) (@consumeLiteral σ j bs) := by
  have h1 := same_separator h (st := st) (p := p) (k := .trailingDataAfterLiteral)
  have h2 : ∀ bs, Same (NoPath J st p) (@consumeLiteralBytes σ i bs) (@consumeLiteralBytes σ j bs) := by
    intro bs
    induction bs with
    | nil => exact .pure _
    | cons b bs ih =>
      have := same_readByte h (st := st) (p := p) (k := .invalidLiteral)
      unfold consumeLiteralBytes; same
  have := h2 bs
  unfold consumeLiteral; same

theorem same_afterName : Same (NoPath J st p) (@afterName σ i) (@afterName σ j) := by
  have := same_ws' h (st := st) (p := p) (k := .missingColon); have := same_skip h (st := st) (p := p)
  unfold afterName; same
  exact same_adv

theorem same_classify {b : UInt8} : Same (NoPath J st p) (@classify σ i b) (@classify σ j b) := by
  unfold classify; same <;> exact same_lit h

/-! ## Peeking -/

theorem same_finishPeek {c : Bool} {q : Option (Nat × Nat × Nat)} {r : Peeked × Bool} : Same (NoPath J st p) (@finishPeek σ i c q r) (@finishPeek σ j c q r) := by
  have := same_skip h (st := st) (p := p)
  have hm : Same (NoPath J st p) (M.modify fun s => { s with peeked := some r.1 } : R σ Unit) (M.modify fun s => { s with peeked := some r.1 }) := .modify fun _ h => h
  unfold finishPeek; same
  exact .set (by assumption)

theorem same_peekToken : Same (NoPath J st p) (@peekToken σ i) (@peekToken σ j) := by
  have := same_ws h (st := st) (p := p) (k := none); have := same_skip h (st := st) (p := p)
  unfold peekToken; same
  all_goals first | exact same_adv | exact same_ws' h | exact same_classify h | exact same_finishPeek h

theorem same_pio : Same (NoPath J st p) (@peekInternalOptional σ i) (@peekInternalOptional σ j) := by
  have := same_peekToken h (st := st) (p := p); have := same_afterName h (st := st) (p := p)
  unfold peekInternalOptional; same

theorem same_peekInternal : Same (NoPath J st p) (@peekInternal σ i) (@peekInternal σ j) := by
  have := same_pio h (st := st) (p := p)
  unfold peekInternal; same

omit h in
theorem same_mapPeeked {q : Peeked} : Same (NoPath J st p) (mapPeeked q : R σ _) (mapPeeked q) := by unfold mapPeeked; same

theorem same_peek : Same (NoPath J st p) (@peek σ i) (@peek σ j) := by
  have := same_peekInternal h (st := st) (p := p)
  unfold peek; same
  exact same_mapPeeked

omit h in
theorem same_consumePeeked : Same (NoPath J st p) (consumePeeked : R σ _) consumePeeked := by
  unfold consumePeeked; same
  rename_i hs _
  exact .set hs

/-! ## Values -/

/-- end of `onContainerStart` -/
def pushChecked (e : ValueType) (v : StackValue) (t : ValueType) : R σ Unit := do
  let s ← M.get
  if t == e then
    match depthExceeded s with
    | some max => M.fail (.maxNestingDepthExceeded max (loc s))
    | none => do
      consumePeeked
      M.modify fun s => { s with stack := v :: s.stack, isEmpty := true }
  else M.fail (.unexpectedValueType e t (loc s))

theorem same_start {e : ValueType} {d : Bool} : Same (NoPath J st p) (@startExpectedValueType σ i e d) (@startExpectedValueType σ j e d) := by
  have := same_peekInternal h (st := st) (p := p); have := @same_consumePeeked σ J st p
  unfold startExpectedValueType; same
  exact same_mapPeeked

omit h in
theorem same_pushChecked {e t : ValueType} {v : StackValue} : Same (NoPath J st p) (pushChecked e v t : R σ _) (pushChecked e v t) := by
  intro s hs
  refine ⟨rfl, ?_⟩
  unfold pushChecked
  rw [M.bind_ok (M.run_get s)]
  split
  · cases hd : depthExceeded s with
    | some m => exact hs
    | none =>
      have h1 := (same_consumePeeked (p := p) s hs).2
      have h2 : (stAfter ((consumePeeked : R σ _).run s)).stack = s.stack := by
        unfold consumePeeked
        rw [M.bind_ok (M.run_get s)]
        cases s.peeked <;> rfl
      dsimp only
      rw [M.run_bind]
      cases h3 : (consumePeeked : R σ _).run s with
      | err e s' => rw [h3] at h1; exact h1
      | ok a s' =>
        rw [h3] at h1 h2
        refine ⟨h1.1, h1.2.1, ?_, h1.2.2.2⟩
        intro max hm
        have h4 : s.settings.maxNestingDepth = some max := by rw [hs.2.2.2, ← h1.2.2.2]; exact hm
        unfold depthExceeded at hd
        rw [h4] at hd
        change s'.stack = _ at h2
        show s'.stack.length + 1 ≤ max
        rw [h2]
        by_cases hl : s.stack.length ≥ max
        · simp [hl] at hd
        · omega
  · exact hs

theorem same_containerStart {e : ValueType} {v : StackValue} : Same (NoPath J st p) (@onContainerStart σ i e v) (@onContainerStart σ j e v) := by
  have h0 := same_peekInternal h (st := st) (p := p)
  
  have he : ∀ k : ByteSource σ, @onContainerStart σ k e v = (do
      let s ← M.get
      if s.expectsMemberName then usagePanic .valueWhenExpectingName
      else do
        let q ← @peekInternal σ k
        let t ← mapPeeked q
        pushChecked e v t) := by
    intro k
    refine M.ext fun s => ?_
    unfold onContainerStart startExpectedValueType
    rw [M.run_bind, M.bind_ok (M.run_get s), M.bind_ok (M.run_get s)]
    by_cases hx : s.expectsMemberName = true
    · rw [if_pos hx, if_pos hx]
      rfl
    · rw [if_neg hx, if_neg hx, M.run_bind, M.run_bind]
      cases (@peekInternal σ k).run s with
      | err _ _ => rfl
      | ok q s' =>
        dsimp only
        rw [M.run_bind, M.run_bind]
        cases (mapPeeked q : R σ _).run s' with
        | err _ _ => rfl
        | ok t s' =>
          dsimp only
          unfold pushChecked
          rw [M.bind_ok (M.run_get s'), M.bind_ok (M.run_get s')]
          by_cases ht : (t == e) = true
          · rw [if_pos ht, if_pos ht, if_pos rfl]
            cases depthExceeded s' with
            | some _ => rfl
            | none =>
              dsimp only
              rw [M.run_bind, M.run_bind]
              cases (consumePeeked : R σ _).run s' <;> rfl
          · rw [if_neg ht, if_neg ht]
            rfl
  rw [he, he]
  same
  · exact same_mapPeeked
  · exact same_pushChecked

omit h in
theorem same_onValueEnd : Same (NoPath J st p) (onValueEnd : R σ _) onValueEnd := by
  intro s hs
  refine ⟨rfl, ?_⟩
  obtain ⟨h1, h2⟩ := hs
  unfold onValueEnd
  rw [M.bind_ok (M.run_get s)]
  cases isInArray s with
  | false => exact ⟨h1, h2⟩
  | true =>
    cases hp : s.path with
    | none => exact ⟨fun _ => rfl, h2⟩
    | some ps =>
      have h3 : p = true → False := fun h => by have := h1 h; rw [hp] at this; cases this
      match ps with
      | [] => exact ⟨h1, h2⟩
      | .arrayItem k :: ps => exact ⟨fun h => (h3 h).elim, h2⟩
      | .objectMember k :: ps => exact ⟨h1, h2⟩

omit h in
theorem same_onContainerEnd : Same (NoPath J st p) (onContainerEnd : R σ _) onContainerEnd := by
  unfold onContainerEnd
  refine .bind (.modify fun s hs => ⟨fun hp => ?_, hs.2.1, fun m hm => ?_, hs.2.2.2⟩) fun _ => same_onValueEnd
  · show s.path.map _ = _
    rw [hs.1 hp]
    rfl
  · have := hs.2.2.1 m hm
    show s.stack.tail.length ≤ m
    rw [List.length_tail]
    omega

theorem same_beginArray : Same (NoPath J st p) (@beginArray σ i) (@beginArray σ j) := by
  refine .bind (same_containerStart h) fun _ => .modify fun s hs => ⟨fun hp => ?_, hs.2⟩
  show s.path.map _ = _
  rw [hs.1 hp]
  rfl

theorem same_beginObject : Same (NoPath J st p) (@beginObject σ i) (@beginObject σ j) := by
  refine .bind (same_containerStart h) fun _ => .modify fun s hs => ⟨fun hp => ?_, hs.2⟩
  show s.path.map _ = _
  rw [hs.1 hp]
  rfl

theorem same_endArray : Same (NoPath J st p) (@endArray σ i) (@endArray σ j) := by
  have := same_peekInternal h (st := st) (p := p); have := @same_consumePeeked σ J st p; have := @same_onContainerEnd σ J st p
  unfold endArray; same

theorem same_endObject : Same (NoPath J st p) (@endObject σ i) (@endObject σ j) := by
  have := same_peekInternal h (st := st) (p := p); have := @same_consumePeeked σ J st p; have := @same_onContainerEnd σ J st p
  unfold endObject; same
  exact .modify fun _ h => h

theorem same_hasNext : Same (NoPath J st p) (@hasNext σ i) (@hasNext σ j) := by
  have := same_peekInternal h (st := st) (p := p); have := same_pio h (st := st) (p := p)
  unfold hasNext; same

theorem same_beforeName : Same (NoPath J st p) (@beforeName σ i) (@beforeName σ j) := by
  have := same_hasNext h (st := st) (p := p); have := @same_consumePeeked σ J st p
  unfold beforeName; same
  exact .modify fun _ h => h

theorem same_nextBool : Same (NoPath J st p) (@nextBool σ i) (@nextBool σ j) := by
  have := same_start h (st := st) (p := p) (e := .boolean) (d := false); have := @same_onValueEnd σ J st p
  unfold nextBool; same

theorem same_nextNull : Same (NoPath J st p) (@nextNull σ i) (@nextNull σ j) := by
  have := same_start h (st := st) (p := p) (e := .null) (d := false); have := @same_onValueEnd σ J st p
  unfold nextNull; same

theorem same_stringBytes : Same (NoPath J st p) (@readStringBytes σ i) (@readStringBytes σ j) := by
  unfold readStringBytes; same
  all_goals first | exact same_adv | exact same_readByte h | exact same_escapeChar h | exact same_multibyte h

theorem same_skipStringLoop : ∀ n, Same (NoPath J st p) (@skipAllStringBytesLoop σ i n) (@skipAllStringBytesLoop σ j n)
  | 0 => .fail
  | n + 1 => by
    have := same_skipStringLoop n; have := same_stringBytes h (st := st) (p := p)
    unfold skipAllStringBytesLoop; same

theorem same_skipString : Same (NoPath J st p) (@skipAllStringBytes σ i) (@skipAllStringBytes σ j) := by
  unfold skipAllStringBytes; same; rw [fuel_eq h]; exact same_skipStringLoop h _

theorem same_numberNext : Same (fun s : RState σ × Nat => NoPath J st p s.1) (numberNext (@skipPeekedByte σ i) (@peekByte σ i)) (numberNext (@skipPeekedByte σ j) (@peekByte σ j)) := by
  have h1 : Same (NoPath J st p) (do @skipPeekedByte σ i; @peekByte σ i) (do @skipPeekedByte σ j; @peekByte σ j) := .bind (same_skip h) fun _ => same_peekByte h
  intro s hs
  obtain ⟨h2, h3⟩ := h1 s.1 hs
  unfold numberNext
  dsimp only
  rw [← h2]
  cases h4 : (do @skipPeekedByte σ i; @peekByte σ i : R σ _).run s.1 with
  | ok a s' => rw [h4] at h3; exact ⟨rfl, h3⟩
  | err e s' => rw [h4] at h3; exact ⟨rfl, h3⟩

theorem same_consumeNumber : Same (NoPath J st p) (@consumeNumber σ i (pure ()) (@skipPeekedByte σ i) (@peekByte σ i)) (@consumeNumber σ j (pure ()) (@skipPeekedByte σ j) (@peekByte σ j)) := by
  have := same_peekByte h (st := st) (p := p)
  unfold consumeNumber; same
  rename_i b _
  intro s hs
  obtain ⟨h2, h3⟩ := same_jsonNumber (same_numberNext h (p := p)) (oof := .outOfFuel) (n := @fuel σ i s) (b := b) (s, 0) hs
  dsimp only
  rw [← fuel_eq h, ← h2]
  cases h4 : (JsonNumber.consumeJsonNumber (numberNext (@skipPeekedByte σ i) (@peekByte σ i)) .outOfFuel (@fuel σ i s) b).run (s, 0) with
  | ok a s' => rw [h4] at h3; exact ⟨rfl, h3⟩
  | err e s' => rw [h4] at h3; exact ⟨rfl, h3⟩

theorem same_finishNumber {n : Nat} : Same (NoPath J st p) (@finishNumber σ i n) (@finishNumber σ j n) := by
  have := same_separator h (st := st) (p := p) (k := .trailingDataAfterNumber); have := @same_onValueEnd σ J st p
  unfold finishNumber; same
  exact same_adv

theorem same_skipNumber : Same (NoPath J st p) (@skipNumber σ i) (@skipNumber σ j) := by
  have := same_start h (st := st) (p := p) (e := .number) (d := false); have := same_consumeNumber h (st := st) (p := p)
  unfold skipNumber; same
  exact same_finishNumber h

/-! ## Skipping -/

theorem same_skipName : Same (NoPath J st true) (@skipName σ i) (@skipName σ j) := by
  have := same_beforeName h (st := st) (p := true)
  unfold skipName
  refine .bind this fun _ => .get fun s hs => ?_
  rw [hs.1 rfl]
  exact same_skipString h

theorem same_skipValueStart : Same (NoPath J st p) (@skipValueStart σ i) (@skipValueStart σ j) := by
  have := same_peek h (st := st) (p := p); have := same_beginArray h (st := st) (p := p); have := same_beginObject h (st := st) (p := p); have := same_start h (st := st) (p := p) (e := .string) (d := false)
  have := same_skipString h (st := st) (p := p); have := @same_onValueEnd σ J st p; have := same_skipNumber h (st := st) (p := p); have := same_nextBool h (st := st) (p := p); have := same_nextNull h (st := st) (p := p)
  unfold skipValueStart; same

theorem same_endContainer : Same (NoPath J st p) (@endContainer σ i) (@endContainer σ j) := by
  have := same_endArray h (st := st) (p := p); have := same_endObject h (st := st) (p := p)
  unfold endContainer; same

theorem same_skipNameIf : Same (NoPath J st true) (@skipNameIfExpected σ i) (@skipNameIfExpected σ j) := by
  have := same_skipName h (st := st)
  unfold skipNameIfExpected; same

theorem same_atEnd {d : Nat} : Same (NoPath J st p) (@atContainerEnd σ i d) (@atContainerEnd σ j d) := by
  have := same_hasNext h (st := st) (p := p)
  unfold atContainerEnd; same

theorem same_skipValueLoop : ∀ n d, Same (NoPath J st true) (@skipValueLoop σ i n d) (@skipValueLoop σ j n d)
  | 0, _ => .fail
  | n + 1, d => by
    have := same_endContainer h (st := st) (p := true); have := same_skipNameIf h (st := st); have := same_skipValueStart h (st := st) (p := true)
    unfold skipValueLoop; same
    · exact same_atEnd h
    · exact same_skipValueLoop n _

theorem same_skipValue : Same (NoPath J st true) (@skipValue σ i) (@skipValue σ j) := by
  unfold skipValue; same; rw [fuel_eq h]; exact same_skipValueLoop h _ _

theorem same_skipItems : ∀ n, Same (NoPath J st true) (@skipItems σ i n) (@skipItems σ j n)
  | 0 => .fail
  | n + 1 => by
    have := same_hasNext h (st := st) (p := true); have := same_skipValue h (st := st); have := same_skipItems n
    unfold skipItems; same

theorem same_skipMembers : ∀ n, Same (NoPath J st true) (@skipMembers σ i n) (@skipMembers σ j n)
  | 0 => .fail
  | n + 1 => by
    have := same_hasNext h (st := st) (p := true); have := same_skipValue h (st := st); have := same_skipName h (st := st); have := same_skipMembers n
    unfold skipMembers; same

theorem same_finishArray : Same (NoPath J st true) (@finishArray σ i) (@finishArray σ j) := by
  have := same_endArray h (st := st) (p := true)
  unfold finishArray; same; rw [fuel_eq h]; exact same_skipItems h _

theorem same_finishObject : Same (NoPath J st true) (@finishObject σ i) (@finishObject σ j) := by
  have := same_endObject h (st := st) (p := true)
  unfold finishObject; same; rw [fuel_eq h]; exact same_skipMembers h _

theorem same_topLevelLoop : ∀ n, Same (NoPath J st true) (@skipToTopLevelLoop σ i n) (@skipToTopLevelLoop σ j n)
  | 0 => by unfold skipToTopLevelLoop; same
  | n + 1 => by
    have := same_finishArray h (st := st); have := same_finishObject h (st := st); have := same_topLevelLoop n
    unfold skipToTopLevelLoop; same

theorem same_skipToTopLevel : Same (NoPath J st true) (@skipToTopLevel σ i) (@skipToTopLevel σ j) := by
  have := same_skipValue h (st := st)
  unfold skipToTopLevel; same
  exact same_topLevelLoop h _

theorem same_trailing : Same (NoPath J st p) (@consumeTrailingWhitespace σ i) (@consumeTrailingWhitespace σ j) := by
  have := same_ws h (st := st) (p := p) (k := none)
  unfold consumeTrailingWhitespace; same

theorem same_seekItems {k : Nat} : ∀ n, Same (NoPath J st true) (@seekItems σ i k n) (@seekItems σ j k n)
  | 0 => by
    have := same_hasNext h (st := st) (p := true)
    unfold seekItems; same
  | n + 1 => by
    have := same_hasNext h (st := st) (p := true); have := same_skipValue h (st := st); have := same_seekItems (k := k) n
    unfold seekItems; same

theorem same_seekBackLoop : ∀ ps, Same (NoPath J st true) (@seekBackLoop σ i ps) (@seekBackLoop σ j ps)
  | [] => .pure _
  | .arrayItem _ :: ps => .bind (same_finishArray h) fun _ => same_seekBackLoop ps
  | .objectMember _ :: ps => .bind (same_finishObject h) fun _ => same_seekBackLoop ps

/-! ## String reader -/

theorem same_stringReader : Same (NoPath J st p) (@nextStringReader σ i) (@nextStringReader σ j) := by
  have := same_start h (st := st) (p := p) (e := .string) (d := false)
  unfold nextStringReader; same
  exact .modify fun _ h => h

omit h in
theorem same_strConsume {len : Nat} : ∀ bs sr out, Same (NoPath J st p) (strConsume len bs sr out : R σ _) (strConsume len bs sr out)
  | [], _, _ => .pure _
  | b :: bs, sr, out => by
    have := @same_strConsume (len := len) bs
    unfold strConsume; same <;> exact this _ _

theorem same_strReadLoop {len : Nat} : ∀ n sr out, Same (NoPath J st p) (@strReadLoop σ i len n sr out) (@strReadLoop σ j len n sr out)
  | 0, _, _ => by unfold strReadLoop; same
  | n + 1, sr, out => by
    have := same_stringBytes h (st := st) (p := p); have := @same_onValueEnd σ J st p
    unfold strReadLoop; same
    · exact same_strConsume _ _ _
    · exact .modify fun _ h => h
    · exact same_strReadLoop n _ _

omit h in
theorem same_strDrain {len : Nat} {sr : StrReader} : Same (NoPath J st p) (strDrain len sr : R σ _) (strDrain len sr) := by unfold strDrain; same

theorem same_strReadImpl {len : Nat} {sr : StrReader} : Same (NoPath J st p) (@strReadImpl σ i len sr) (@strReadImpl σ j len sr) := by
  have := @same_strDrain σ J st p len sr
  unfold strReadImpl; same
  exact same_strReadLoop h _ _ _

theorem same_strReads : ∀ lens sr, Same (NoPath J st p) (@strReadsOk σ i lens sr) (@strReadsOk σ j lens sr)
  | [], _ => .pure _
  | len :: lens, sr => by
    have := same_strReadImpl h (st := st) (p := p) (len := len) (sr := sr)
    unfold strReadsOk; same
    exact same_strReads lens _

/-! ## Sequences of calls -/

theorem same_seekToLoop : ∀ ps, (ps.all fun | .arrayItem _ => true | .objectMember _ => false) = true → Same (NoPath J st true) (@seekToLoop σ i ps) (@seekToLoop σ j ps)
  | [], _ => .pure _
  | .objectMember _ :: ps, hp => by cases hp
  | .arrayItem k :: ps, hp => .bind (.bind (same_beginArray h) fun _ => same_seekItems h _) fun _ => same_seekToLoop ps hp

theorem same_op {op : Op} (hs : Streaming.streams (!p) op = true) : Same (NoPath J st p) (@runOp σ i op) (@runOp σ j op) := by
  cases op with
  | nextName => cases hs
  | nextNameOwned => cases hs
  | nextString => cases hs
  | nextStr => cases hs
  | nextNumberAsStr => cases hs
  | nextNumberAsString => cases hs
  | peek => exact .bind (same_peek h) fun _ => .pure _
  | beginArray => exact .bind (same_beginArray h) fun _ => .pure _
  | endArray => exact .bind (same_endArray h) fun _ => .pure _
  | beginObject => exact .bind (same_beginObject h) fun _ => .pure _
  | endObject => exact .bind (same_endObject h) fun _ => .pure _
  | nextBool => exact .bind (same_nextBool h) fun _ => .pure _
  | nextNull => exact .bind (same_nextNull h) fun _ => .pure _
  | hasNext => exact .bind (same_hasNext h) fun _ => .pure _
  | consumeTrailingWhitespace => exact .bind (same_trailing h) fun _ => .pure _
  | currentPosition b => exact .get fun _ _ => .pure _
  | stringReader lens => exact .bind (same_stringReader h) fun _ => .bind (same_strReads h _ _) fun _ => .pure _
  | skipName => cases p with
    | false => cases hs
    | true => exact .bind (same_skipName h) fun _ => .pure _
  | skipValue => cases p with
    | false => cases hs
    | true => exact .bind (same_skipValue h) fun _ => .pure _
  | skipToTopLevel => cases p with
    | false => cases hs
    | true => exact .bind (same_skipToTopLevel h) fun _ => .pure _
  | seekBack path => cases p with
    | false => cases hs
    | true => exact .bind (same_seekBackLoop h _) fun _ => .pure _
  | seekTo path => cases p with
    | false => cases hs
    | true => exact .bind (.bind (same_peek h) fun _ => same_seekToLoop h _ hs) fun _ => .pure _

theorem same_runOps {ops : List Op} (hs : ∀ op ∈ ops, Streaming.streams (!p) op = true) : ∀ {s : RState σ}, NoPath J st p s → @runOps σ i ops s = @runOps σ j ops s := by
  induction ops with
  | nil => intro _ _; rfl
  | cons op ops ih =>
    intro s hi
    obtain ⟨h1, h2⟩ := same_op h (hs op (.head _)) s hi
    unfold runOps
    rw [← h1]
    cases h3 : (@runOp σ i op).run s with
    | ok o s' =>
      rw [h3] at h2
      dsimp only
      rw [ih (fun op h => hs op (.tail _ h)) (s := s') h2]
    | err e s' =>
      rw [h3] at h2
      dsimp only
      rw [ih (fun op h => hs op (.tail _ h)) (s := s') h2]

theorem same_stateAfter {ops : List Op} (hs : ∀ op ∈ ops, Streaming.streams (!p) op = true) : ∀ {s : RState σ}, NoPath J st p s → NoPath J st p (@Streaming.stateAfter σ i ops s) := by
  induction ops with
  | nil => intro _ hi; exact hi
  | cons op ops ih =>
    intro s hi
    obtain ⟨-, h2⟩ := same_op h (hs op (.head _)) s hi
    have ih := fun s hi => @ih (fun op h => hs op (.tail _ h)) s hi
    unfold Streaming.stateAfter
    cases h3 : (@runOp σ i op).run s with
    | ok o s' =>
      rw [h3] at h2
      dsimp only
      split
      · exact h2
      · exact ih _ h2
    | err e s' =>
      rw [h3] at h2
      dsimp only
      split
      · exact h2
      · exact ih _ h2

end

/-! ## The concrete source -/

section
open BufSrc
variable {N : Nat}

theorem bounded_fill {n : Nat} {s : BufSrc N} (h : Streaming.Bounded s) : Streaming.Bounded (stAfter ((fillBuffer n : M SrcErr (BufSrc N) _).run s)) := by
  unfold fillBuffer
  rw [M.bind_ok (M.run_get s)]
  by_cases h1 : s.reachedEof = true
  · rw [if_pos h1]; exact h
  rw [if_neg h1]
  by_cases h2 : (!decide (s.bufPos ≥ s.bufEndPos)) = true
  · rw [if_pos h2]; exact h
  rw [if_neg h2]
  by_cases h3 : (!decide (n < s.buf.length)) = true
  · rw [if_pos h3]; exact h
  rw [if_neg h3]
  by_cases h4 : s.bufUsed = true
  · rw [if_pos h4]; exact h
  rw [if_neg h4]
  have hn : n < s.buf.length := by simpa using h3
  have hl : ∀ (sp : Nat) (es : List ReadEvent) (d : Bytes) (es' : List ReadEvent), readLoop sp es = (.ok d, es') → d.length ≤ sp := by
    intro sp es
    induction es with
    | nil => intro d es' he; cases he; exact Nat.zero_le _
    | cons e es ih =>
      intro d es' he
      cases e with
      | interrupted => exact ih d es' he
      | error c => cases he
      | data bs =>
        unfold readLoop at he
        split at he
        · cases he; assumption
        · cases he; rw [List.length_take]; omega
  cases h5 : readLoop (s.buf.length - n) s.sched with
  | mk r es =>
    cases r with
    | error c => exact h
    | ok d =>
      refine ⟨?_, h.2⟩
      have h6 := hl _ _ _ _ h5
      show (s.buf.take n ++ d ++ s.buf.drop (n + d.length)).length = N
      have h7 := h.1
      simp only [List.length_append, List.length_take, List.length_drop]
      omega

theorem bounded_peek {s : BufSrc N} (h : Streaming.Bounded s) : Streaming.Bounded (stAfter ((BufSrc.peekByte : M SrcErr (BufSrc N) _).run s)) := by
  have h1 : Streaming.Bounded (stAfter ((ensureNonEmptyBuffer : M SrcErr (BufSrc N) _).run s)) := by
    unfold ensureNonEmptyBuffer
    rw [M.bind_ok (M.run_get s)]
    by_cases h1 : s.bufPos < s.bufEndPos
    · rw [if_pos h1]; exact h
    · rw [if_neg h1]; exact bounded_fill h
  unfold BufSrc.peekByte
  rw [M.run_bind]
  cases h2 : (ensureNonEmptyBuffer : M SrcErr (BufSrc N) _).run s with
  | err e s' => rw [h2] at h1; exact h1
  | ok b s' =>
    rw [h2] at h1
    cases b with
    | false => exact h1
    | true =>
      show Streaming.Bounded (stAfter (((index s'.buf s'.bufPos : M SrcErr (BufSrc N) _) >>= fun b => pure (some b)).run s'))
      unfold index
      cases s'.buf[s'.bufPos]? <;> exact h1

theorem bounded_skip {s : BufSrc N} (h : Streaming.Bounded s) : Streaming.Bounded (stAfter ((BufSrc.skipPeekedByte : M SrcErr (BufSrc N) _).run s)) := by
  unfold BufSrc.skipPeekedByte
  rw [M.bind_ok (M.run_get s)]
  split <;> exact h

theorem agree_bufSrc : Agree (instByteSourceBufSrcD (N := N) (dbg := true)) (Streaming.withoutValueReader N) := ⟨rfl, rfl, rfl⟩

theorem keeps_bufSrc : Keeps (instByteSourceBufSrcD (N := N) (dbg := true)) Streaming.Bounded := ⟨fun _ h => bounded_peek h, fun _ h => bounded_skip h⟩

theorem noPath_new (st : Settings) (sched : List ReadEvent) : NoPath Streaming.Bounded st (!st.trackPath) (new (BufSrc.new N sched) st) := by
  refine ⟨fun h => ?_, ⟨List.length_replicate .., rfl, rfl, rfl⟩, fun _ _ => Nat.zero_le _, rfl⟩
  show (if st.trackPath then some [] else none) = none
  rw [if_neg (by simpa using h)]

end

end Verif.Reader

import Verif.Proofs.Writer.Ops
/-!
# Using the writer after errors

The writer never causes an internal panic, whatever the underlying `Write` does and also if the caller continues after errors.
-/

namespace Verif.Writer
open Utf8 Json WSpec

variable {α β : Type}

/-! ## Computations which end when a call fails -/

/-- After a failed call of `write_bytes` or `flush` the error is returned at once; all results satisfy `Q` -/
def Tree.Cool (Q : Core → Prop) : Tree (Except WErr α × Core) → Prop
  | .ret b => Q b.2
  | .panic _ => True
  | .emit _ k => (k (.ok ())).Cool Q ∧ ∀ e, ∃ s, k (.error e) = .ret (.error e, s) ∧ Q s
  | .flush k => (k (.ok ())).Cool Q ∧ ∀ e, ∃ s, k (.error e) = .ret (.error e, s) ∧ Q s

/-- … and only the state of the string value writer changes -/
def Cool (m : W α) : Prop := ∀ c, (m.run c).Cool (Same c)

theorem Tree.Cool.mono {P Q : Core → Prop} {t : Tree (Except WErr α × Core)} (h : t.Cool P) (hQ : ∀ c, P c → Q c) : t.Cool Q := by
  induction t with
  | ret b => exact hQ _ h
  | panic => trivial
  | emit bs k ih => exact ⟨ih _ h.1, fun e => let ⟨s, h1, h2⟩ := h.2 e; ⟨s, h1, hQ _ h2⟩⟩
  | flush k ih => exact ⟨ih _ h.1, fun e => let ⟨s, h1, h2⟩ := h.2 e; ⟨s, h1, hQ _ h2⟩⟩

theorem Tree.Cool.bind {P Q : Core → Prop} {t : Tree (Except WErr α × Core)} {f : Except WErr α × Core → Tree (Except WErr β × Core)} (h : t.Cool P)
    (hf : ∀ a c, P c → (f (.ok a, c)).Cool Q) (he : ∀ e c, P c → ∃ c', f (.error e, c) = .ret (.error e, c') ∧ Q c') : (t.bind f).Cool Q := by
  induction t with
  | ret b =>
    obtain ⟨r, c⟩ := b
    cases r with
    | ok a => exact hf a c h
    | error e => obtain ⟨c', h1, h2⟩ := he e c h; show (f _).Cool Q; rw [h1]; exact h2
  | panic => trivial
  | emit bs k ih =>
    refine ⟨ih _ h.1, fun e => ?_⟩
    obtain ⟨s, h1, h2⟩ := h.2 e
    show ∃ s, (k (.error e)).bind f = _ ∧ _
    rw [h1]
    exact he e s h2
  | flush k ih =>
    refine ⟨ih _ h.1, fun e => ?_⟩
    obtain ⟨s, h1, h2⟩ := h.2 e
    show ∃ s, (k (.error e)).bind f = _ ∧ _
    rw [h1]
    exact he e s h2

theorem Cool.bind {m : W α} {f : α → W β} (h : Cool m) (hf : ∀ a, Cool (f a)) : Cool (m >>= f) := by
  intro c
  rw [T.run_bind]
  exact (h c).bind (fun a c' hc => (hf a c').mono fun _ h => hc.trans h) fun e c' hc => ⟨c', rfl, hc⟩

theorem cool_pure {a : α} : Cool (pure a : W α) := fun _ => rfl
theorem cool_get : Cool (T.get : W Core) := fun _ => rfl
theorem cool_modify {g : Core → Core} (h : ∀ c, Same c (g c)) : Cool (T.modify g : W Unit) := fun c => h c
theorem cool_fail {e : WErr} : Cool (T.fail e : W α) := fun _ => rfl
theorem cool_panic {p : WPanic} : Cool (T.panic p : W α) := fun _ => trivial
theorem cool_usage {u : WUsage} : Cool (T.usage u : W α) := fun _ => trivial
theorem cool_internal {u : WInternal} : Cool (T.internal u : W α) := fun _ => trivial
theorem cool_writeBytes {bs : Bytes} : Cool (T.writeBytes bs : W Unit) := fun c => ⟨rfl, fun _ => ⟨c, rfl, rfl⟩⟩
theorem cool_flush : Cool (T.flush : W Unit) := fun c => ⟨rfl, fun _ => ⟨c, rfl, rfl⟩⟩
theorem cool_ite {p : Prop} [Decidable p] {m m' : W α} (h : Cool m) (h' : Cool m') : Cool (if p then m else m') := by
  split <;> assumption

/-- proves `Cool` for straight line code, with lemmas for the called methods -/
syntax "cool" ("[" term,* "]")? : tactic
macro_rules
  | `(tactic| cool) => `(tactic| cool [cool_pure])
  | `(tactic| cool [$ls,*]) => do
    let alts ← ls.getElems.mapM fun l => `(tacticSeq| with_reducible exact $l)
    `(tactic| repeat' (first
      | with_reducible exact cool_pure | with_reducible exact cool_get | with_reducible exact cool_fail
      | with_reducible exact cool_panic | with_reducible exact cool_usage | with_reducible exact cool_internal
      | with_reducible exact cool_writeBytes | with_reducible exact cool_flush
      | with_reducible refine cool_ite ?_ ?_
      | with_reducible refine Cool.bind ?_ fun _ => ?_
      | (first $[| $alts]*)
      | assumption
      | (refine cool_modify ?_; exact fun _ => rfl)))

theorem cool_slice {bytes : Bytes} {i j : Nat} : Cool (slice bytes i j) := by unfold slice; cool
theorem cool_csub {i j : Nat} : Cool (csub i j) := by unfold csub; cool
theorem cool_toHex {i : Nat} : Cool (toHex i) := by unfold toHex; cool
theorem cool_getUnicodeEscape {i : Nat} : Cool (getUnicodeEscape i) := by unfold getUnicodeEscape; cool [cool_toHex]

theorem cool_writeEscapedChar {c : Char} : Cool (writeEscapedChar c) := by
  unfold writeEscapedChar
  cases twoCharEscape c with
  | some => exact cool_writeBytes
  | none => dsimp only; cool [cool_csub, cool_getUnicodeEscape]

theorem cool_pieceLoop {bytes : Bytes} {cs : Text} {i n : Nat} : Cool (pieceLoop bytes cs i n) := by
  induction cs generalizing i n with
  | nil => exact cool_pure
  | cons c cs ih =>
    unfold pieceLoop
    cool [ih, cool_slice, cool_writeEscapedChar]

theorem cool_writeStringValuePiece {t : Text} : Cool (writeStringValuePiece t) := by
  unfold writeStringValuePiece
  cool [cool_slice, cool_pieceLoop]

theorem cool_writeStringValue {t : Text} : Cool (writeStringValue t) := by
  unfold writeStringValue
  cool [cool_writeStringValuePiece]

theorem cool_indentLoop {n : Nat} : Cool (writeIndentationLoop n) := by
  induction n with
  | zero => exact cool_pure
  | succ n ih => unfold writeIndentationLoop; cool [ih]

theorem cool_decodeUtf8Char {b : Bytes} : Cool (decodeUtf8Char b) := by
  unfold decodeUtf8Char
  cases Utf8.decodeUtf8 b <;> dsimp only <;> cool

theorem cool_fromUtf8 {b : Bytes} : Cool (fromUtf8 b) := by
  unfold fromUtf8
  cases Utf8.decodeUtf8 b <;> dsimp only <;> cool

theorem cool_setUtf8Buf {i : Nat} {b : Bytes} : Cool (setUtf8Buf i b) := by unfold setUtf8Buf; cool
theorem cool_setUtf8Pos {i : Nat} : Cool (setUtf8Pos i) := by unfold setUtf8Pos; cool

theorem cool_completeChar {b : Bytes} : Cool (completeChar b) := by
  unfold completeChar
  cool [cool_csub, cool_setUtf8Buf, cool_setUtf8Pos, cool_decodeUtf8Char, cool_slice, cool_writeStringValuePiece]

theorem cool_expectedBytesCount {b : UInt8} : Cool (expectedBytesCount b) := by unfold expectedBytesCount; cool

theorem cool_writeImplLoop {b : Bytes} {st fuel i : Nat} : Cool (writeImplLoop b st fuel i) := by
  induction fuel generalizing i with
  | zero => exact cool_internal
  | succ fuel ih =>
    unfold writeImplLoop
    split
    · dsimp only
      refine cool_ite ih (cool_expectedBytesCount.bind fun r => ?_)
      cases r with
      | none => exact ih
      | some x => dsimp only; cool [ih, cool_setUtf8Buf, cool_setUtf8Pos, cool_fromUtf8, cool_slice, cool_writeStringValuePiece]
    · cool [ih, cool_setUtf8Buf, cool_setUtf8Pos, cool_fromUtf8, cool_slice, cool_writeStringValuePiece]

theorem cool_maxOrOffsetNegative {i j k : Nat} : Cool (maxOrOffsetNegative i j k) := by
  unfold maxOrOffsetNegative; cool [cool_csub]

theorem cool_writeImpl {b : Bytes} : Cool (writeImpl b) := by
  unfold writeImpl; cool [cool_completeChar, cool_maxOrOffsetNegative, cool_writeImplLoop]

theorem cool_svWriteStr {t : Text} : Cool (do
    let c ← T.get
    if 0 < c.sv.utf8Pos then T.fail .incompleteUtf8
    else writeStringValuePiece t : W Unit) := by
  cool [cool_writeStringValuePiece]

/-! ## Safety -/

/-- all panics are caused by incorrect usage, and all results satisfy `P`, whatever the answers of the underlying `Write` are -/
def Tree.Safe (P : β → Prop) : Tree β → Prop
  | .ret b => P b
  | .panic p => ∃ u, p = .usage u
  | .emit _ k => ∀ r, (k r).Safe P
  | .flush k => ∀ r, (k r).Safe P

theorem Tree.Safe.mono {P Q : β → Prop} {t : Tree β} (h : t.Safe P) (hQ : ∀ b, P b → Q b) : t.Safe Q := by
  induction t with
  | ret b => exact hQ b h
  | panic _ => exact h
  | emit _ _ ih => exact fun r => ih r (h r)
  | flush _ ih => exact fun r => ih r (h r)

theorem Tree.Safe.bind {P : α → Prop} {Q : β → Prop} {t : Tree α} {f : α → Tree β} (h : t.Safe P) (hf : ∀ a, P a → (f a).Safe Q) : (t.bind f).Safe Q := by
  induction t with
  | ret b => exact hf b h
  | panic _ => exact h
  | emit _ _ ih => exact fun r => ih r (h r)
  | flush _ ih => exact fun r => ih r (h r)

theorem Tree.ideal_ok {t : Tree β} {k : Except WErr Unit → Tree β} {bs : Bytes} {b : β} (h : t.ideal = (.ok b, bs)) (hk : t = .flush k ∨ ∃ bs', t = .emit bs' k) :
    ∃ bs', (k (.ok ())).ideal = (.ok b, bs') := by
  rcases hk with rfl | ⟨bs', rfl⟩
  · exact ⟨_, Prod.ext (congrArg (fun x => x.1) h) rfl⟩
  · exact ⟨_, Prod.ext (congrArg (fun x => x.1) h) rfl⟩

/-- a computation which ends when a call fails -/
theorem Tree.Cool.safe {Q : Core → Prop} {t : Tree (Except WErr α × Core)} {b : Except WErr α × Core} {bs : Bytes} (h : t.Cool Q) (hi : t.ideal = (.ok b, bs)) :
    t.Safe fun x => (x = b ∨ ∃ e c, x = (.error e, c)) ∧ Q x.2 := by
  induction t generalizing bs with
  | ret b' => cases hi; exact ⟨.inl rfl, h⟩
  | panic => cases hi
  | emit bs' k ih =>
    intro r
    cases r with
    | ok =>
      obtain ⟨_, hb⟩ := Tree.ideal_ok hi (.inr ⟨_, rfl⟩)
      exact ih _ h.1 hb
    | error e =>
      obtain ⟨c, h1, h2⟩ := h.2 e
      rw [h1]
      exact ⟨.inr ⟨e, c, rfl⟩, h2⟩
  | flush k ih =>
    intro r
    cases r with
    | ok =>
      obtain ⟨_, hb⟩ := Tree.ideal_ok hi (.inl rfl)
      exact ih _ h.1 hb
    | error e =>
      obtain ⟨c, h1, h2⟩ := h.2 e
      rw [h1]
      exact ⟨.inr ⟨e, c, rfl⟩, h2⟩

/-- What always holds, also after errors -/
structure Weak (c : Core) : Prop where
  level : c.settings.prettyPrint = true → c.stack.length ≤ c.indentationLevel + (if c.isEmpty then 1 else 0)
  name : c.settings.prettyPrint = true → c.isEmpty = true → c.expectsMemberName = false → isInObject c = true → c.stack.length ≤ c.indentationLevel

theorem Weak.same {c c' : Core} (h : Weak c) (hs : Same c c') : Weak c' := by
  rw [hs]
  exact ⟨h.level, h.name⟩

/-- safe; after errors `Weak` -/
def Ws (m : W α) (c : Core) (Q : α → Core → Prop) : Prop := (m.run c).Safe fun r => match r.1 with
  | .ok a => Q a r.2
  | .error _ => Weak r.2

theorem Ws.post {m : W α} {c : Core} {P Q : α → Core → Prop} (h : Ws m c P) (hQ : ∀ a c', P a c' → Q a c') : Ws m c Q := by
  refine Tree.Safe.mono h ?_
  rintro ⟨_ | a, c'⟩ hp
  · exact hp
  · exact hQ a c' hp

theorem Ws.bind {m : W α} {c : Core} {f : α → W β} {P : α → Core → Prop} {Q : β → Core → Prop} (h : Ws m c P) (hf : ∀ a c', P a c' → Ws (f a) c' Q) : Ws (m >>= f) c Q := by
  unfold Ws
  rw [T.run_bind]
  refine Tree.Safe.bind h ?_
  rintro ⟨_ | a, c'⟩ hp
  · exact hp
  · exact hf a c' hp

theorem Ws.pure {a : α} {c : Core} {Q : α → Core → Prop} (h : Q a c) : Ws (pure a) c Q := h
theorem Ws.get {c : Core} {f : Core → W β} {Q : β → Core → Prop} (h : Ws (f c) c Q) : Ws (T.get >>= f) c Q := h
theorem Ws.modify {c : Core} {g : Core → Core} {f : Unit → W β} {Q : β → Core → Prop} (h : Ws (f ()) (g c) Q) : Ws (T.modify g >>= f) c Q := h
theorem Ws.modify' {c : Core} {g : Core → Core} {Q : Unit → Core → Prop} (h : Q () (g c)) : Ws (T.modify g) c Q := h
theorem Ws.fail {e : WErr} {c : Core} {Q : α → Core → Prop} (h : Weak c) : Ws (T.fail e) c Q := h
theorem Ws.usage {u : WUsage} {c : Core} {Q : α → Core → Prop} : Ws (T.usage u) c Q := ⟨u, rfl⟩
theorem Ws.ite {p : Prop} [Decidable p] {m m' : W α} {c : Core} {Q : α → Core → Prop} (h : p → Ws m c Q) (h' : ¬ p → Ws m' c Q) : Ws (if p then m else m') c Q := by
  split
  · exact h ‹_›
  · exact h' ‹_›
theorem Ws.write {bs : Bytes} {c : Core} (h : Weak c) : Ws (T.writeBytes bs) c (fun _ c' => c' = c) := by
  intro r
  cases r with
  | ok => rfl
  | error => exact h
theorem Ws.flush {c : Core} (h : Weak c) : Ws T.flush c (fun _ c' => c' = c) := by
  intro r
  cases r with
  | ok => rfl
  | error => exact h

theorem Ws.wbind {bs : Bytes} {c : Core} {f : Unit → W β} {Q : β → Core → Prop} (h : Weak c) (hf : Ws (f ()) c Q) : Ws (T.writeBytes bs >>= f) c Q :=
  (Ws.write h).bind fun _ _ e => e ▸ hf

theorem Ws.cool {m : W α} {c c' : Core} {bs : Bytes} {a : α} (h : Cool m) (hw : Weak c) (he : Emits m c bs a c') : Ws m c (fun a' s => a' = a ∧ s = c') := by
  refine ((h c).safe he).mono ?_
  rintro _ ⟨rfl | ⟨e, s, rfl⟩, hs⟩
  · exact ⟨rfl, rfl⟩
  · exact hw.same hs

theorem ws_string {t : Text} {c : Core} (hw : Weak c) : Ws (writeStringValue t) c (fun _ s => s = c) :=
  (Ws.cool cool_writeStringValue hw (string_emits t c)).post fun _ _ h => h.2

theorem ws_indent {c : Core} (hw : Weak c) : Ws writeIndentation c (fun _ s => s = c) :=
  (Ws.cool (cool_get.bind fun _ => cool_indentLoop) hw (emits_indent c)).post fun _ _ h => h.2

/-- the element of a container has been started -/
structure Started (c c' : Core) : Prop where
  eq : c' = { c with indentationLevel := c'.indentationLevel }
  le : c.indentationLevel ≤ c'.indentationLevel
  level : c.settings.prettyPrint = true → c.stack.length ≤ c'.indentationLevel

theorem ws_before {c : Core} (hw : Weak c) : Ws beforeContainerElement c (fun _ c' => Started c c') := by
  unfold beforeContainerElement
  refine Ws.get (Ws.ite (fun he => ?_) fun he => ?_)
  · refine Ws.ite (fun hp => Ws.wbind hw ?_) fun hp => Ws.pure ⟨rfl, Nat.le_refl _, fun h => absurd h hp⟩
    refine Ws.modify ?_
    have hl := hw.level hp
    rw [if_pos he] at hl
    refine (ws_indent (c := { c with indentationLevel := c.indentationLevel + 1 }) ⟨fun h => ?_, fun _ _ _ _ => hl⟩).post ?_
    · exact Nat.le_trans hl (Nat.le_add_right _ _)
    · rintro _ _ rfl
      exact ⟨rfl, Nat.le_succ _, fun _ => hl⟩
  · have he : c.isEmpty = false := by simpa using he
    have hl : c.settings.prettyPrint = true → c.stack.length ≤ c.indentationLevel := fun hp => by
      have := hw.level hp
      rwa [if_neg (by rw [he]; exact nofun)] at this
    refine Ws.ite (fun hp => Ws.wbind hw ?_) fun hp => ?_
    · refine (ws_indent hw).post ?_
      rintro _ _ rfl
      exact ⟨rfl, Nat.le_refl _, hl⟩
    · refine (Ws.write hw).post ?_
      rintro _ _ rfl
      exact ⟨rfl, Nat.le_refl _, hl⟩

/-- in front of a value -/
structure Val (c c' : Core) : Prop where
  weak : Weak c'
  level : c'.settings.prettyPrint = true → c'.stack.length ≤ c'.indentationLevel
  full : c'.isEmpty = false

theorem Started.val {c c' : Core} (h : Started c c') : Weak { c' with isEmpty := false } ∧ (c'.settings.prettyPrint = true → c'.stack.length ≤ c'.indentationLevel) := by
  rw [h.eq]
  exact ⟨⟨fun hp => h.level hp, fun _ he => by cases he⟩, h.level⟩

theorem ws_beforeValue {c : Core} (hw : Weak c) : Ws beforeValue c (fun _ c' => Val c c') := by
  unfold beforeValue
  refine Ws.get (Ws.ite (fun _ => Ws.usage) fun _ => Ws.ite (fun _ => Ws.usage) fun hn => ?_)
  have hn : c.expectsMemberName = false := by simpa using hn
  have hs : Ws beforeValueSeparator c (fun _ c' => c'.settings.prettyPrint = true → c'.stack.length ≤ c'.indentationLevel) := by
    unfold beforeValueSeparator
    refine Ws.get (Ws.ite (fun h => ?_) fun h => ?_)
    · have hst : c.stack = [] := by
        rw [Bool.and_eq_true] at h
        exact List.isEmpty_iff.1 h.2
      cases c.settings.separator with
      | none => exact Ws.usage
      | some sep =>
        refine (Ws.write hw).post ?_
        rintro _ _ rfl _
        rw [hst]
        exact Nat.zero_le _
    · refine Ws.ite (fun ha => ?_) fun ha => ?_
      · exact (ws_before hw).post fun _ _ h => h.val.2
      · refine Ws.pure fun hp => ?_
        cases he : c.isEmpty with
        | false =>
          have := hw.level hp
          rwa [if_neg (by rw [he]; exact nofun)] at this
        | true =>
          cases hst : c.stack with
          | nil => exact Nat.zero_le _
          | cons k l =>
            rw [← hst]
            refine hw.name hp he hn ?_
            cases k with
            | array => exact absurd (by unfold isInArray; rw [hst]; rfl) ha
            | object => unfold isInObject; rw [hst]; rfl
  refine hs.bind fun _ c1 h1 => Ws.modify (Ws.modify' ?_)
  dsimp only
  split
  · exact ⟨⟨fun hp => h1 hp, fun _ he => by cases he⟩, h1, rfl⟩
  · exact ⟨⟨fun hp => h1 hp, fun _ he => by cases he⟩, h1, rfl⟩

theorem ws_onContainerEnd {c : Core} (hw : Weak c) (hs : c.stack ≠ []) : Ws onContainerEnd c (fun _ c' => Weak c') := by
  unfold onContainerEnd
  refine Ws.modify (Ws.get ?_)
  have hlen : c.stack.tail.length + 1 = c.stack.length := by
    cases h : c.stack with
    | nil => exact absurd h hs
    | cons => rfl
  have fin : ∀ {c1 : Core}, (c1.settings.prettyPrint = true → c1.stack.length ≤ c1.indentationLevel) →
      Ws (do T.modify fun c => { c with isEmpty := false }; T.modify fun c => { c with expectsMemberName := isInObject c } : W Unit) c1 (fun _ c' => Weak c') :=
    fun h => Ws.modify (Ws.modify' ⟨fun hp => h hp, fun _ he => by cases he⟩)
  by_cases he : c.isEmpty = true
  · rw [if_neg (by simp [he])]
    refine fin fun hp => ?_
    have := hw.level hp
    rw [if_pos he] at this
    dsimp only
    omega
  · have he : c.isEmpty = false := by simpa using he
    by_cases hp : c.settings.prettyPrint = true
    · rw [if_pos (by simp [he, hp])]
      have hl := hw.level hp
      rw [if_neg (by rw [he]; exact nofun)] at hl
      have hw1 : Weak { c with stack := c.stack.tail } := ⟨fun _ => by dsimp only; omega, fun _ h => by rw [he] at h; cases h⟩
      refine Ws.wbind hw1 ?_
      refine Ws.bind (P := fun _ c' => c' = { c with stack := c.stack.tail, indentationLevel := c.indentationLevel - 1 }) ?_ ?_
      · unfold decreaseIndentation csub
        refine Ws.get ?_
        dsimp only
        rw [if_pos (by omega)]
        exact Ws.modify' rfl
      · rintro _ _ rfl
        refine Ws.bind (ws_indent ⟨fun _ => by dsimp only; omega, fun _ h => by rw [he] at h; cases h⟩) ?_
        rintro _ _ rfl
        exact fin fun _ => by dsimp only; omega
    · rw [if_neg (by simp [hp])]
      exact fin fun h => absurd h hp

theorem ws_simple {bs : Bytes} {c : Core} (hw : Weak c) : Ws (do beforeValue; T.writeBytes bs : W Unit) c (fun _ c' => Weak c') :=
  (ws_beforeValue hw).bind fun _ _ h => (Ws.write h.weak).post fun _ _ e => e ▸ h.weak

theorem inObject_ne {c : Core} (h : isInObject c = true) : c.stack ≠ [] := by
  unfold isInObject at h
  intro hs
  rw [hs] at h
  cases h

theorem inArray_ne {c : Core} (h : isInArray c = true) : c.stack ≠ [] := by
  unfold isInArray at h
  intro hs
  rw [hs] at h
  cases h

theorem ws_name {t : Text} {c : Core} (hw : Weak c) : Ws (name t) c (fun _ c' => Weak c') := by
  unfold name
  refine Ws.get (Ws.ite (fun _ => Ws.usage) fun hn => Ws.ite (fun _ => Ws.usage) fun _ => ?_)
  have hn : c.expectsMemberName = true := by simpa using hn
  refine (ws_before hw).bind fun _ c1 h => ?_
  have hl : c1.settings.prettyPrint = true → c1.stack.length ≤ c1.indentationLevel := h.val.2
  have hw1 : Weak c1 := ⟨fun hp => Nat.le_trans (hl hp) (Nat.le_add_right _ _), fun hp _ _ _ => hl hp⟩
  refine (ws_string hw1).bind ?_
  rintro _ _ rfl
  refine Ws.get (Ws.wbind hw1 (Ws.modify' ⟨fun hp => Nat.le_trans (hl hp) (Nat.le_add_right _ _), fun hp _ _ _ => hl hp⟩))

/-! ## The string value writer -/

/-- after calls of the string value writer which was active in state `c0` -/
structure SvUsed (c0 c : Core) : Prop where
  same : Same c0 c
  inv : (∃ pend, SvInv c pend) ∨ ∃ e, c.sv.error = some e

/-- the error is remembered -/
theorem track_safe {m : W α} {c : Core} {Q : Except WErr α × Core → Prop} (he : c.sv.error = none) (hc : Cool m)
    (hi : (∃ bs a c', Emits m c bs a c' ∧ Q (.ok a, c')) ∨ ∃ bs e c', Errs m c bs e c') (hq : ∀ e e' c', Same c c' → c'.sv.error = some e' → Q (.error e, c')) :
    ((runWithErrorTracking m).run c).Safe Q := by
  unfold runWithErrorTracking
  rw [T.run_bind]
  rcases checkPreviousError_cases c with ⟨_, h1⟩ | ⟨e, h1, _⟩
  · rw [h1]
    have key : ∀ b : Except WErr α × Core, (∃ a c', b = (.ok a, c') ∧ Q (.ok a, c')) ∨ (∃ e c', b = (.error e, c') ∧ Same c c') →
        (T.run (match b.1 with
          | .ok a => pure a
          | .error e => do
            T.modify fun c => { c with sv := { c.sv with error := some e } }
            T.fail e : W α) b.2).Safe Q := by
      rintro _ (⟨a, c', rfl, h⟩ | ⟨e, c', rfl, h⟩)
      · exact h
      · exact hq e e _ (h.trans rfl) rfl
    have hall : (m.run c).Safe fun b => (∃ a c', b = (.ok a, c') ∧ Q (.ok a, c')) ∨ (∃ e c', b = (.error e, c') ∧ Same c c') := by
      rcases hi with ⟨bs, a, c', hi, ha⟩ | ⟨bs, e, c', hi⟩
      · refine ((hc c).safe hi).mono ?_
        rintro _ ⟨rfl | ⟨e, s, rfl⟩, h⟩
        · exact .inl ⟨a, c', rfl, ha⟩
        · exact .inr ⟨e, s, rfl, h⟩
      · refine ((hc c).safe hi).mono ?_
        rintro _ ⟨rfl | ⟨e, s, rfl⟩, h⟩
        · exact .inr ⟨e, c', rfl, h⟩
        · exact .inr ⟨e, s, rfl, h⟩
    show (T.run (T.attempt m >>= _) c).Safe Q
    rw [T.run_bind]
    show (Tree.bind (Tree.bind (m.run c) _) _).Safe Q
    refine Tree.Safe.bind (Tree.Safe.bind hall (Q := fun x => ∃ r, x.1 = .ok r ∧ ((∃ a c', (r, x.2) = (.ok a, c') ∧ Q (.ok a, c')) ∨ (∃ e c', (r, x.2) = (.error e, c') ∧ Same c c'))) ?_) ?_
    · intro b h
      exact ⟨b.1, rfl, h⟩
    · rintro ⟨_, c'⟩ ⟨r, rfl, h⟩
      exact key (r, c') h
  · rw [he] at h1; cases h1

theorem ws_op {c0 c : Core} (h : SvUsed c0 c) (o : SvOp) : ((svOp o).run c).Safe fun r => SvUsed c0 r.2 := by
  rcases h.inv with ⟨pend, hi⟩ | ⟨e, he⟩
  · have hq : ∀ {β : Type} (e e' : WErr) (c' : Core), Same c c' → c'.sv.error = some e' → (fun r : Except WErr β × Core => SvUsed c0 r.2) (.error e, c') :=
      fun e e' c' h1 h2 => ⟨h.same.trans h1, .inr ⟨e', h2⟩⟩
    have unit : ∀ {m : W Unit}, (m.run c).Safe (fun r => SvUsed c0 r.2) → (T.run (m >>= fun _ => pure 0 : W Nat) c).Safe fun r => SvUsed c0 r.2 := by
      intro m hm
      rw [T.run_bind]
      refine Tree.Safe.bind hm ?_
      rintro ⟨_ | _, c'⟩ h' <;> exact h'
    cases o with
    | write bs =>
      refine track_safe hi.error cool_writeImpl ?_ hq
      rcases writeImpl_emits hi bs with ⟨t, p', c', h1, h2, h3, h4⟩ | ⟨t, c', h1, h2, h3, h4⟩
      · exact .inl ⟨_, _, c', h1, h.same.trans h3, .inl ⟨p', h4⟩⟩
      · exact .inr ⟨_, _, c', h1⟩
    | writeStr t =>
      refine unit (track_safe hi.error cool_svWriteStr ?_ hq)
      by_cases hp : 0 < c.sv.utf8Pos
      · refine .inr ⟨[], .incompleteUtf8, c, emits_get.seq_err ?_⟩
        rw [if_pos hp]
        exact errs_fail
      · refine .inl ⟨(strLit c.settings t).body, (), c, emits_get.seq ?_, h.same, .inl ⟨pend, hi⟩⟩
        rw [if_neg hp]
        exact piece_emits t c
    | flush => exact unit (track_safe hi.error cool_flush (.inl ⟨_, (), c, emits_flush, h.same, .inl ⟨pend, hi⟩⟩) hq)
  · rw [svOp_sticky he]
    exact h

theorem ws_ops {c0 c : Core} (h : SvUsed c0 c) (ops : List SvOp) : ((svOps ops).run c).Safe fun r => (∃ rs, r.1 = .ok rs) ∧ SvUsed c0 r.2 := by
  induction ops generalizing c with
  | nil => exact ⟨⟨_, rfl⟩, h⟩
  | cons o ops ih =>
    unfold svOps
    rw [T.run_bind]
    refine Tree.Safe.bind (P := fun x => ∃ r, x.1 = .ok r ∧ SvUsed c0 x.2) (Tree.Safe.bind (ws_op h o) fun b hb => ⟨b.1, rfl, hb⟩) ?_
    rintro ⟨_, c'⟩ ⟨r, rfl, h'⟩
    show (T.run (svOps ops >>= _) c').Safe _
    rw [T.run_bind]
    refine Tree.Safe.bind (ih h') ?_
    rintro ⟨_, c''⟩ ⟨⟨rs, rfl⟩, h''⟩
    exact ⟨⟨_, rfl⟩, h''⟩

theorem ws_finish {c0 c : Core} (hw : Weak c0) (h : SvUsed c0 c) : (svFinishValue.run c).Safe fun r => Weak r.2 := by
  have hwc := hw.same h.same
  cases he : c.sv.error with
  | some e =>
    rw [svFinish_sticky he]
    exact hwc
  | none =>
    unfold svFinishValue
    rw [T.run_bind]
    rcases checkPreviousError_cases c with ⟨_, h1⟩ | ⟨e, h1, _⟩
    · rw [h1]
      have hs : Ws (do
          let c ← T.get
          if 0 < c.sv.utf8Pos then T.fail .incompleteUtf8
          else do
            T.writeBytes [0x22]
            T.modify fun c => { c with stringWriterActive := false, sv := .new } : W Unit) c (fun _ c' => Weak c') :=
        Ws.get (Ws.ite (fun _ => Ws.fail hwc) fun _ => Ws.wbind hwc (Ws.modify' ⟨hwc.level, hwc.name⟩))
      refine Tree.Safe.mono hs ?_
      rintro ⟨_ | _, c'⟩ h' <;> exact h'
    · rw [he] at h1; cases h1

theorem ws_stringValueWriter {c : Core} (hw : Weak c) : Ws stringValueWriter c (fun _ c' => Weak c' ∧ SvInv c' []) := by
  unfold stringValueWriter
  refine (ws_beforeValue hw).bind fun _ c1 h => Ws.wbind h.weak (Ws.modify' ⟨⟨h.weak.level, h.weak.name⟩, SvInv.new c1⟩)

/-! ## All methods -/

theorem ws_number {t : Text} {c : Core} (hw : Weak c) : Ws (do beforeValue; T.writeBytes (enc t) : W Unit) c (fun _ c' => Weak c') := ws_simple hw

theorem ws_wop {o : WOp} {c : Core} (ho : OpOk o) (hw : Weak c) : ((wop o).run c).Safe fun r => Weak r.2 := by
  have fin : ∀ {α : Type} {m : W α}, Ws m c (fun _ c' => Weak c') → (m.run c).Safe fun r => Weak r.2 := by
    intro α m hm
    refine Tree.Safe.mono hm ?_
    rintro ⟨_ | _, c'⟩ h' <;> exact h'
  have unit : ∀ {m : W Unit}, Ws m c (fun _ c' => Weak c') → (T.run (m >>= fun _ => pure WOut.unit : W WOut) c).Safe fun r => Weak r.2 :=
    fun hm => fin (hm.bind fun _ _ h => Ws.pure h)
  cases o with
  | beginObject =>
    refine unit ((ws_beforeValue hw).bind fun _ c1 h => Ws.modify (Ws.modify (Ws.modify ((Ws.write ?_).post fun _ _ e => e ▸ ?_))))
    all_goals exact ⟨fun hp => Nat.succ_le_succ (h.level hp), fun _ _ hn => by cases hn⟩
  | beginArray =>
    refine unit ((ws_beforeValue hw).bind fun _ c1 h => Ws.modify (Ws.modify (Ws.modify ((Ws.write ?_).post fun _ _ e => e ▸ ?_))))
    all_goals exact ⟨fun hp => Nat.succ_le_succ (h.level hp), fun _ _ _ ho => by cases ho⟩
  | name t => exact unit (ws_name hw)
  | endObject =>
    refine unit (Ws.get (Ws.ite (fun _ => Ws.usage) fun h => Ws.ite (fun _ => Ws.usage) fun _ => Ws.ite (fun _ => Ws.usage) fun _ => ?_))
    exact (ws_onContainerEnd hw (inObject_ne (by simpa using h))).bind fun _ _ h => (Ws.write h).post fun _ _ e => e ▸ h
  | endArray =>
    refine unit (Ws.get (Ws.ite (fun _ => Ws.usage) fun h => Ws.ite (fun _ => Ws.usage) fun _ => ?_))
    exact (ws_onContainerEnd hw (inArray_ne (by simpa using h))).bind fun _ _ h => (Ws.write h).post fun _ _ e => e ▸ h
  | stringValue t => exact unit ((ws_beforeValue hw).bind fun _ _ h => (ws_string h.weak).post fun _ _ e => e ▸ h.weak)
  | boolValue b => exact unit (ws_simple hw)
  | nullValue => exact unit (ws_simple hw)
  | numberValue n =>
    cases n with
    | int t v =>
      refine unit ?_
      unfold numberValue FinNum.useJsonNumber
      dsimp only
      rw [if_pos ((isValid_iff _).2 (isInteger_number (intToString_isInteger v)))]
      exact ws_simple hw
    | transferred t => exact unit (ws_simple hw)
  | fpNumberValue n =>
    obtain ⟨b, t⟩ := n
    refine unit ?_
    unfold fpNumberValue FpNum.useJsonNumber
    cases b with
    | true =>
      dsimp only
      rw [if_pos rfl, if_pos ((isValid_iff _).2 (ho rfl))]
      exact ws_simple hw
    | false => exact Ws.fail hw
  | numberValueFromString t => exact unit (Ws.ite (fun _ => ws_simple hw) fun _ => Ws.fail hw)
  | finishDocument =>
    refine unit (Ws.get (Ws.ite (fun _ => Ws.usage) fun h => Ws.ite (fun _ => Ws.usage) fun _ => Ws.ite (fun _ => Ws.ite (fun _ => Ws.usage) fun _ => ?_) fun _ => Ws.usage))
    exact (Ws.flush hw).post fun _ _ e => e ▸ hw
  | stringValueWriter ops f =>
    refine fin ((ws_stringValueWriter hw).bind fun _ c1 h => ?_)
    refine Ws.bind (P := fun _ c2 => SvUsed c1 c2) ?_ fun rs c2 h2 => ?_
    · refine Tree.Safe.mono (ws_ops ⟨Same.refl _, .inl ⟨[], h.2⟩⟩ ops) ?_
      rintro ⟨_, c'⟩ ⟨⟨rs, rfl⟩, h'⟩
      exact h'
    · refine Ws.ite (fun _ => Ws.bind (P := fun _ c' => Weak c') ?_ fun _ _ h => Ws.pure h) fun _ => Ws.pure (h.1.same h2.same)
      exact Tree.Safe.bind (ws_finish h.1 h2) fun _ h => h

theorem wopsAll_safe {ops : List WOp} {c : Core} (ho : ∀ o ∈ ops, OpOk o) (hw : Weak c) : ((wopsAll ops).run c).Safe fun _ => True := by
  induction ops generalizing c with
  | nil => trivial
  | cons o ops ih =>
    refine Tree.Safe.bind (ws_wop (ho o List.mem_cons_self) hw) ?_
    rintro ⟨r, c'⟩ h
    dsimp only
    split
    · trivial
    · refine Tree.Safe.bind (ih (fun o h => ho o (List.mem_cons_of_mem _ h)) h) ?_
      rintro ⟨e | _, _⟩ _
      · exact nomatch e
      · trivial

/-! ## The buffer -/

/-- Holds also after failed calls: then the buffer can be full. -/
structure BufSink.Fine (N : Nat) (k : BufSink) : Prop where
  len : k.buf.length = N
  pos : k.pos ≤ N

theorem writeBytesLoop_fine {N fuel : Nat} {bytes : Bytes} {k : BufSink} (hN : 0 < N) (hk : k.Fine N) (hf : bytes.length + (if k.pos = N then 1 else 0) < fuel) :
    match (writeBytesLoop fuel bytes).run k with
    | .ok _ k' => k'.Fine N
    | .err (.err _) k' => k'.Fine N
    | .err (.panic _) _ => False := by
  induction fuel generalizing bytes k with
  | zero => omega
  | succ fuel ih =>
    rw [writeBytesLoop]
    by_cases hb : bytes.isEmpty
    · rw [if_pos hb]
      exact hk
    · rw [if_neg hb]
      rw [List.isEmpty_iff] at hb
      rw [M.bind_ok (M.run_get _)]
      dsimp only
      rw [M.bind_ok (M.run_modify _ _), M.bind_ok (M.run_get _)]
      dsimp only
      have hl := hk.len
      have hp := hk.pos
      have hlen : (bytes.take (min (k.buf.length - k.pos) bytes.length)).length = min (k.buf.length - k.pos) bytes.length := by simp
      generalize hc : min (k.buf.length - k.pos) bytes.length = n at hlen
      have hbl : 0 < bytes.length := List.length_pos_iff.2 hb
      have ho := overwrite_length (buf := k.buf) (pos := k.pos) (bs := bytes.take n) (by omega)
      have hd : (bytes.drop n).length = bytes.length - n := by simp
      by_cases hfull : (overwrite k.buf k.pos (bytes.take n)).length ≤ k.pos + n
      · rw [if_pos hfull]
        rcases sinkWriteAll_spec (overwrite k.buf k.pos (bytes.take n)) { k with buf := overwrite k.buf k.pos (bytes.take n), pos := k.pos + n } with
          ⟨s, h1, _⟩ | ⟨e, s, h1, _⟩
        · rw [M.bind_ok h1, M.bind_ok (M.run_modify _ _)]
          refine ih ⟨by dsimp only; omega, Nat.zero_le _⟩ ?_
          rw [if_neg (by dsimp only; omega), hd]
          split at hf <;> omega
        · rw [M.bind_err h1]
          exact ⟨by dsimp only; omega, by dsimp only; omega⟩
      · rw [if_neg hfull]
        refine ih ⟨by dsimp only; omega, by dsimp only; omega⟩ ?_
        rw [if_neg (by dsimp only; omega), hd]
        split at hf <;> omega

theorem flush_fine {N : Nat} {k : BufSink} (hk : k.Fine N) : match flush.run k with
    | .ok _ k' => k'.Fine N
    | .err (.err _) k' => k'.Fine N
    | .err (.panic _) _ => False := by
  unfold flush
  rw [M.bind_ok (M.run_get _)]
  rcases sinkWriteAll_spec (k.buf.take k.pos) k with ⟨s, h1, _⟩ | ⟨e, s, h1, _⟩
  · rw [M.bind_ok h1, M.bind_ok (M.run_modify _ _)]
    unfold sinkFlush
    dsimp only
    cases hs : s.flush with
    | mk r s' =>
      cases r <;> exact ⟨hk.len, Nat.zero_le _⟩
  · rw [M.bind_err h1]
    exact ⟨hk.len, hk.pos⟩

theorem Tree.Safe.run {P : β → Prop} {t : Tree β} {N : Nat} {k : BufSink} (h : t.Safe P) (hN : 0 < N) (hk : k.Fine N) : match t.run.run k with
    | .ok _ _ => True
    | .err p _ => ∃ u, p = .usage u := by
  induction t generalizing k with
  | ret b => trivial
  | panic p => exact h
  | emit bs f ih =>
    unfold Tree.run
    dsimp only
    have hw : match (Writer.writeBytes bs).run k with
      | .ok _ k' => k'.Fine N
      | .err (.err _) k' => k'.Fine N
      | .err (.panic _) _ => False := writeBytesLoop_fine hN hk (by split <;> omega)
    generalize (Writer.writeBytes bs).run k = r at hw
    match r, hw with
    | .ok _ k', hw => exact ih _ (h _) hw
    | .err (.err e) k', hw => exact ih _ (h _) hw
  | flush f ih =>
    unfold Tree.run
    dsimp only
    have hw := flush_fine hk
    generalize Writer.flush.run k = r at hw
    match r, hw with
    | .ok _ k', hw => exact ih _ (h _) hw
    | .err (.err e) k', hw => exact ih _ (h _) hw

theorem new_fine (N : Nat) (s : Sink) : (BufSink.new N s).Fine N := ⟨by simp [BufSink.new], Nat.zero_le _⟩

theorem execAll_safe {N : Nat} {st : WSettings} {sink : Sink} {ops : List WOp} (hN : 0 < N) (ho : ∀ o ∈ ops, OpOk o) {p : WPanic}
    (h : (execAll N st sink ops).1 = .error p) : ∃ u, p = .usage u := by
  have hr := (wopsAll_safe ho (c := Core.new st) ⟨fun _ => Nat.zero_le _, fun _ _ _ _ => Nat.zero_le _⟩).run hN (new_fine N sink)
  unfold execAll at h
  generalize ((wopsAll ops).run (Core.new st)).run.run (BufSink.new N sink) = r at h hr
  match r, h, hr with
  | .err p' k, h, hr => cases h; exact hr
  | .ok (.error e, _) _, _, _ => exact nomatch e

end Verif.Writer

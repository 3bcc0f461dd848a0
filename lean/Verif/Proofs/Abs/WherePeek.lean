import Verif.Proofs.Abs.Where
/-! # Locations of errors: peeking and starting of values -/

namespace Verif.Where
open Reader Utf8 Json ErrorLocation Abs

section
variable {F : Fr} {x y d : Bytes} {pk : Option Peeked} {s s' : St} {α β : Type}

theorem sep_iff (b : UInt8) : isValueSeparator b = true ↔ b ∈ separators := by
  simp only [isValueSeparator, separators, Bool.or_eq_true, beq_iff_eq, List.mem_cons, List.not_mem_nil, or_false]
  constructor
  · rintro ((((((((h | h) | h) | h) | h) | h) | h) | h) | h) <;> simp [h]
  · rintro (h | h | h | h | h | h | h | h | h) <;> simp [h]

theorem At.separator (h : At F x y d pk s) {k : SyntaxKind} (hk : Head (· ∉ separators) s.src.rest → SyntaxPoints k y) :
    Wp (verifyValueSeparator k) s (fun _ s' => s' = s ∧ SepOk s.src.rest) (EL F) := by
  unfold verifyValueSeparator
  refine h.peekByte ?_
  cases hr : s.src.rest with
  | nil => exact Wp.pure ⟨rfl, fun _ h => by cases h⟩
  | cons b t =>
    refine Wp.ite (fun hb => Wp.pure ⟨rfl, ?_⟩) fun hb => h.syn (hk ⟨b, t, hr, fun h => hb ((sep_iff b).2 h)⟩)
    rintro b' ⟨⟩
    exact hb

theorem At.literalBytes {lit : Bytes} (hl : lit ∈ literals) (hh : y.head? = lit.head?) : ∀ {l1 l2 : Bytes} {s : St}, lit = l1 ++ l2 → At F x y l1 pk s →
    Wp (consumeLiteralBytes l2) s (fun _ s' => At F x y lit pk s') (EL F) := by
  intro l1 l2
  induction l2 generalizing l1 with
  | nil =>
    intro s he h
    rw [List.append_nil] at he
    subst he
    exact Wp.pure h
  | cons e l2 ih =>
    intro s he h
    unfold consumeLiteralBytes
    have hbad : (∀ t, s.src.rest ≠ e :: t) → SyntaxPoints .invalidLiteral y := by
      intro hr
      refine ⟨lit, hl, hh, ?_⟩
      rintro ⟨t, ht⟩
      rw [h.rest, he, List.append_assoc] at ht
      have := List.append_cancel_left ht
      exact hr _ this.symm
    refine Wp.bind (isRb_wp isRb_readByte h (fun b t hr => ?_) fun hr s' => h.el rfl (hbad (by rw [hr]; exact fun _ h => by cases h)) rfl)
    have h1 := h.eat (keep := false) (bs := [b]) hr
    refine Wp.ite (fun hb => h1.syn (hbad ?_)) fun hb => ?_
    · rw [hr]
      rintro _ ⟨⟩
      simp at hb
    · have hb : b = e := by simpa using hb
      subst hb
      exact ih (by rw [he, List.append_assoc]; rfl) h1

theorem At.literal {lit : Bytes} (hl : lit ∈ literals) (hh : y.head? = lit.head?) (h : At F x y [] pk s) :
    Wp (consumeLiteral lit) s (fun _ s' => At F x y lit pk s' ∧ SepOk s'.src.rest) (EL F) := by
  unfold consumeLiteral
  refine Wp.bind' (At.literalBytes hl hh (l1 := []) rfl h) ?_
  rintro _ s1 h1
  refine (h1.separator ?_).post ?_
  · exact fun hr => ⟨lit, hl, _, h1.rest, hr⟩
  · rintro _ _ ⟨rfl, h2⟩
    exact ⟨h1, h2⟩

/-- state behind `classify` -/
def Classified (F : Fr) (x y : Bytes) (p : Peeked × Bool) (s : St) : Prop :=
  At F x y (if p.2 then [] else tokBytes p.1) none s ∧ (p.2 = true → (∃ b t, tokBytes p.1 = [b] ∧ y = b :: t) ∧ ∀ r, Follow p.1 r) ∧ (p.2 = false → Follow p.1 s.src.rest) ∧
    (p.1 = .objectEnd → s.expectsMemberName = true) ∧ (p.1 = .arrayEnd → s.expectsMemberName = false)

theorem At.classify {b : UInt8} {t : Bytes} (h : At F x (b :: t) [] none s) (hw : isWsByte b = false) (hs : b ≠ 0x2F) :
    Wp (Reader.classify b) s (Classified F x (b :: t)) (EL F) := by
  have one : ∀ {p : Peeked}, tokBytes p = [b] → (∀ r, Follow p r) → (p = .objectEnd → s.expectsMemberName = true) → (p = .arrayEnd → s.expectsMemberName = false) → Wp (pure (p, true)) s (Classified F x (b :: t)) (EL F) :=
    fun h1 h2 h3 h4 => Wp.pure ⟨h, fun _ => ⟨⟨b, t, h1, rfl⟩, h2⟩, (fun h => by cases h), h3, h4⟩
  have lit : ∀ {p : Peeked} {lit : Bytes}, lit ∈ literals → lit.head? = some b → tokBytes p = lit → (∀ r, SepOk r → Follow p r) → p ≠ .objectEnd → p ≠ .arrayEnd →
      Wp (do consumeLiteral lit; pure (p, false)) s (Classified F x (b :: t)) (EL F) := by
    intro p lit h1 h2 h3 h4 n1 n2
    refine Wp.bind' (At.literal h1 (y := b :: t) h2.symm h) ?_
    rintro _ s1 ⟨h5, h6⟩
    refine Wp.pure ⟨?_, (fun h => by cases h), (fun _ => h4 _ h6), (fun h => absurd h n1), fun h => absurd h n2⟩
    show At F x _ (tokBytes p) none s1
    rw [h3]; exact h5
  unfold Reader.classify
  refine Wp.get ?_
  refine Wp.ite (fun hm => ?_) fun hm => ?_
  · refine Wp.ite (fun hb => ?_) fun h1 => Wp.ite (fun hb => ?_) fun h2 => ?_
    · have hb := eq_of_beq hb; subst hb
      exact one rfl (fun _ => trivial) (fun h => by first | exact hm | cases h) (fun h => by first | exact Bool.eq_false_iff.2 hm | cases h)
    · have hb := eq_of_beq hb; subst hb
      exact one rfl (fun _ => trivial) (fun h => by first | exact hm | cases h) (fun h => by first | exact Bool.eq_false_iff.2 hm | cases h)
    · exact h.syn (k := .expectingMemberNameOrObjectEnd) ⟨b, t, rfl, by simpa using h2, by simpa using h1, notWs hw⟩
  refine Wp.ite (fun hb => ?_) fun h1 => Wp.ite (fun hb => ?_) fun h2 => Wp.ite (fun hb => ?_) fun h3 => Wp.ite (fun hb => ?_) fun h4 =>
    Wp.ite (fun hb => ?_) fun h5 => Wp.ite (fun hb => ?_) fun h6 => Wp.ite (fun hb => ?_) fun h7 => Wp.ite (fun hb => ?_) fun h8 =>
    Wp.ite (fun hb => ?_) fun h9 => Wp.ite (fun hb => ?_) fun h10 => Wp.ite (fun hb => ?_) fun h11 => ?_
  · have hb := eq_of_beq hb; subst hb
    exact one rfl (fun _ => trivial) (fun h => by first | exact hm | cases h) (fun h => by first | exact Bool.eq_false_iff.2 hm | cases h)
  · have hb := eq_of_beq hb; subst hb
    exact Wp.ite (fun _ => h.syn (k := .unexpectedClosingBracket) ⟨_, _, rfl, .inl rfl⟩) fun _ => one rfl (fun _ => trivial) (fun h => by first | exact hm | cases h) (fun h => by first | exact Bool.eq_false_iff.2 hm | cases h)
  · have hb := eq_of_beq hb; subst hb
    exact one rfl (fun _ => trivial) (fun h => by first | exact hm | cases h) (fun h => by first | exact Bool.eq_false_iff.2 hm | cases h)
  · have hb := eq_of_beq hb; subst hb
    exact h.syn (k := .unexpectedClosingBracket) ⟨_, _, rfl, .inr rfl⟩
  · have hb := eq_of_beq hb; subst hb
    exact one rfl (fun _ => trivial) (fun h => by first | exact hm | cases h) (fun h => by first | exact Bool.eq_false_iff.2 hm | cases h)
  · refine Wp.pure ⟨h, (fun h => by cases h), (fun _ => ⟨b, t, h.rest.symm, (numStart_iff b).1 hb⟩), (fun h => by cases h), fun h => by cases h⟩
  · have hb := eq_of_beq hb; subst hb
    exact lit (p := .null) (by decide) rfl rfl (fun _ h => h) (by decide) (by decide)
  · have hb := eq_of_beq hb; subst hb
    exact lit (p := .booleanTrue) (by decide) rfl rfl (fun _ h => h) (by decide) (by decide)
  · have hb := eq_of_beq hb; subst hb
    exact lit (p := .booleanFalse) (by decide) rfl rfl (fun _ h => h) (by decide) (by decide)
  · have hb := eq_of_beq hb; subst hb
    exact h.syn (k := .unexpectedComma) ⟨_, _, rfl, rfl⟩
  · have hb := eq_of_beq hb; subst hb
    exact h.syn (k := .unexpectedColon) ⟨_, _, rfl, rfl⟩
  · refine h.syn (k := .malformedJson) ⟨b, t, rfl, ?_, fun hb => h6 ((numStart_iff b).2 hb)⟩
    simp [isWsByte] at *
    simp [*]

/-- the token is the next one -/
def SetPeeked (F : Fr) (x y : Bytes) (o : Option Peeked) (s : St) : Prop := o ≠ none ∧ At F x y (tb o) o s ∧ (∀ p, o = some p → Follow p s.src.rest) ∧
  (o = some .objectEnd → s.expectsMemberName = true) ∧ (o = some .arrayEnd → s.expectsMemberName = false)

theorem Classified.set {p : Peeked × Bool} (h : Classified F x y p s) :
    Wp (do (if p.2 then skipPeekedByte else pure ()); M.modify (fun s : St => { s with peeked := some p.1 }); pure (some p.1)) s (SetPeeked F x y) (EL F) := by
  obtain ⟨h1, h2, h3, ho, ha⟩ := h
  rcases p with ⟨p, a⟩
  cases a with
  | true =>
    obtain ⟨⟨b, t, hb, rfl⟩, h4⟩ := h2 rfl
    refine At.skip (f := fun _ => _) h1 fun h5 => ?_
    refine Wp.bind (Wp.modify (Wp.pure ⟨by simp, ⟨h5.inp, ?_, h5.pos, rfl, h5.path, h5.behind, h5.st, h5.lo, h5.term, h5.obj⟩, ?_, (fun h => ho (Option.some.inj h)), fun h => ha (Option.some.inj h)⟩))
    · show _ = tokBytes p ++ _
      rw [hb]; rfl
    · rintro _ ⟨⟩
      exact h4 _
  | false =>
    refine Wp.bind (Wp.pure (Wp.bind (Wp.modify (Wp.pure ⟨by simp, ⟨h1.inp, h1.rest, h1.pos, rfl, h1.path, h1.behind, h1.st, h1.lo, h1.term, h1.obj⟩, ?_, (fun h => ho (Option.some.inj h)), fun h => ha (Option.some.inj h)⟩))))
    rintro _ ⟨⟩
    exact h3 rfl

theorem tok_head' {p : Peeked} {r : Bytes} (h : Follow p r) (hp : (p == .arrayEnd || p == .objectEnd) = false) : Head TokenStart (tokBytes p ++ r) := by
  cases p with
  | arrayEnd => cases hp
  | objectEnd => cases hp
  | numberStart =>
    obtain ⟨b, t, h1, h2⟩ := h
    exact ⟨b, t, h1, .inr h2⟩
  | _ => exact ⟨_, _, rfl, .inl (by decide)⟩

theorem Classified.closing {p : Peeked × Bool} (h : Classified F x y p s) (hp : (p.1 == .arrayEnd || p.1 == .objectEnd) = true) : Head (fun b => b = 0x5D ∨ b = 0x7D) y := by
  obtain ⟨h1, h2, -⟩ := h
  rcases p with ⟨p, a⟩
  replace hp : p = .arrayEnd ∨ p = .objectEnd := by simpa using hp
  cases a with
  | true =>
    obtain ⟨⟨b, t, hb, rfl⟩, -⟩ := h2 rfl
    rcases hp with rfl | rfl <;> cases hb
    · exact ⟨_, _, rfl, .inl rfl⟩
    · exact ⟨_, _, rfl, .inr rfl⟩
  | false =>
    have hr := h1.rest
    rcases hp with rfl | rfl
    · exact ⟨_, _, hr, .inl rfl⟩
    · exact ⟨_, _, hr, .inr rfl⟩

theorem Classified.finish {p : Peeked × Bool} {chc : Bool} {comma : Option (Nat × Nat × Nat)} (h : Classified F x y p s)
    (hc : ∀ l c b, comma = some (l, c, b) → ∃ xc yc, F.inp = xc ++ yc ∧ (⟨l, c, b⟩ : Pos) = posOf xc ∧ F.n0 ≤ xc.length ∧ ∃ (w : Ws) (cm : Bool), yc = 0x2C :: (w.bytes ++ y) ∧ w.Ok cm) :
    Wp (finishPeek chc comma p) s (SetPeeked F x y) (EL F) := by
  unfold finishPeek
  refine Wp.get (Wp.ite (fun hend => ?_) fun hne => Wp.ite (fun _ => ?_) fun _ => h.set)
  · rcases comma with _ | ⟨l, c, b⟩
    · exact h.set
    · refine Wp.ite (fun _ => ?_) fun _ => h.set
      obtain ⟨xc, yc, h1, h2, h3, w, cm, h4, h5⟩ := hc _ _ _ rfl
      refine Wp.bind (Wp.set (Wp.of_err rfl ⟨?_, fun h => by cases h⟩))
      rintro _ ⟨⟩
      refine ⟨xc, yc, h1, h2, ?_, h3, w, cm, y, h4, h5, h.closing hend⟩
      show s.path.map List.reverse = _
      rw [h.1.path]
  · refine h.1.syn (k := .missingComma) ?_
    obtain ⟨h1, h2, h3, ho, ha⟩ := h
    rcases p with ⟨p, _ | _⟩
    · rw [h1.rest]
      exact tok_head' (h3 rfl) (Bool.eq_false_iff.2 hne)
    · obtain ⟨⟨b, t, hb, rfl⟩, h4⟩ := h2 rfl
      have := tok_head' (h4 t) (Bool.eq_false_iff.2 hne)
      rw [hb] at this
      exact this

theorem At.peekToken (h : At F x y [] none s) (hn : NoSplit x y) (hm : F.behind = true → F.st.allowMultipleTopLevel = true) :
    Wp Reader.peekToken s (fun o s' => ∃ x' y', Ready F x' y' o s' ∧ (o = none → y' = [])) (EL F) := by
  have fin : ∀ {x y : Bytes} {o : Option Peeked} {s' : St}, NoSplit x y → SetPeeked F x y o s' → ∃ x' y', Ready F x' y' o s' ∧ (o = none → y' = []) := by
    intro x y o s' hn h
    exact ⟨x, y, ⟨h.2.1, hn, h.2.2.1, h.2.2.2.1, h.2.2.2.2, fun _ => hm⟩, fun ho => absurd ho h.1⟩
  unfold Reader.peekToken
  refine Wp.bind' (h.whitespace hn (by rintro _ ⟨⟩)) ?_
  rintro o s1 ⟨x1, y1, h1, hn1, ⟨rfl, rfl⟩ | ⟨b, t, rfl, rfl, hb1, hb2⟩, _⟩
  · exact Wp.pure ⟨x1, [], ⟨h1, hn1, (by rintro _ ⟨⟩), nofun, nofun, fun h => absurd rfl h⟩, fun _ => rfl⟩
  refine Wp.get (Wp.ite (fun hb => ?_) fun hb => ?_)
  · have hb := eq_of_beq hb
    subst hb
    refine Wp.ite (fun _ => h1.syn (k := .unexpectedComma) ⟨_, _, rfl, rfl⟩) fun _ => ?_
    refine h1.skip fun h2 => ?_
    have hp : Plain [0x2C] := plain_byte (by decide) (by decide) (by decide)
    refine Wp.bind (h2.plain hp rfl fun s3 h3 hs3 => ?_)
    refine Wp.bind' ((wp_and (h3.whitespaceNoEof (k := .incompleteDocument) (noSplit_plain hp hn1) (.inl rfl)) (skipWhitespaceNoEof_lo h3.term)).mono (fun _ _ h => h) fun _ _ h => h.1) ?_
    rintro b s4 ⟨⟨x4, t4, h4, hn4, hb4, hb5⟩, w, t', hw, -, hw2, rfl⟩
    have ht' : b :: t4 = b :: t' := h4.rest
    cases ht'
    refine Wp.bind' (h4.classify hb4 hb5) ?_
    rintro p s5 h5
    refine (h5.finish ?_).post fun _ _ => fin hn4
    rintro _ _ _ ⟨⟩
    exact ⟨x1, _, h1.inp, h1.pos, h1.lo, w, _, by rw [← hw2, hs3]; rfl, hw⟩
  · refine Wp.bind' (h1.classify hb1 hb2) ?_
    rintro p s5 h5
    exact (h5.finish (by rintro _ _ _ ⟨⟩)).post fun _ _ => fin hn1

theorem At.afterName (h : At F x y [] pk s) (hn : NoSplit x y) : Wp Reader.afterName s (fun _ s' => ∃ x' y', At F x' y' [] pk s' ∧ NoSplit x' y') (EL F) := by
  unfold Reader.afterName
  refine Wp.bind' (h.whitespaceNoEof (k := .missingColon) hn (.inl rfl)) ?_
  rintro b s1 ⟨x1, t, h1, hn1, hw, _⟩
  refine Wp.ite (fun hb => ?_) fun hb => ?_
  · have hb := eq_of_beq hb
    subst hb
    refine h1.skip fun h2 => ?_
    have hp : Plain [0x3A] := plain_byte (by decide) (by decide) (by decide)
    exact h2.plain hp rfl fun s3 h3 _ => ⟨_, _, h3, noSplit_plain hp hn1⟩
  · exact h1.syn (k := .missingColon) (.inr ⟨b, t, rfl, by simpa using hb, notWs hw⟩)

theorem Ready.peekOptional (h : Ready F x y pk s) : Wp peekInternalOptional s (fun o s' => ∃ x' y', Ready F x' y' o s' ∧ (o = none → y' = [])) (EL F) := by
  unfold peekInternalOptional
  refine Wp.get (Wp.ite (fun _ => usage_wp) fun _ => Wp.ite (fun hp => ?_) fun hp => Wp.ite (fun _ => usage_wp) fun hb => ?_)
  · refine Wp.pure ⟨x, y, ?_, fun hn => ?_⟩
    · rw [h.peeked]; exact h
    · rw [hn] at hp; cases hp
  have hpk : pk = none := by
    rw [h.peeked] at hp
    cases pk with
    | none => rfl
    | some _ => exact absurd rfl hp
  subst hpk
  have hm : F.behind = true → F.st.allowMultipleTopLevel = true := by
    intro hF
    rw [h.behind, h.st, hF] at hb
    simpa using hb
  refine Wp.ite (fun _ => ?_) fun _ => h.toAt.peekToken h.split hm
  refine Wp.bind' (h.toAt.afterName h.split) ?_
  rintro _ s1 ⟨x1, y1, h1, hn1⟩
  exact h1.peekToken hn1 hm

theorem Ready.el (h : Ready F x y pk s) {e : RErr} (hl : location e = some (loc s)) (hp : Points e y) : EL F e s :=
  ⟨h.toAt.wh hl rfl hp, fun _ _ => ⟨x, y, pk, h⟩⟩

theorem Ready.peek (h : Ready F x y pk s) : Wp peekInternal s (fun p s' => ∃ x' y', Ready F x' y' (some p) s') (EL F) := by
  unfold peekInternal
  refine Wp.bind' h.peekOptional ?_
  rintro o s1 ⟨x1, y1, h1, hy⟩
  cases o with
  | some p => exact Wp.pure ⟨x1, y1, h1⟩
  | none =>
    have hy := hy rfl
    subst hy
    refine Wp.get (Wp.ite (fun _ => Wp.of_err rfl (h1.el rfl (.inl rfl))) fun _ => h1.toAt.syn (k := .incompleteDocument) (.inl rfl))

/-- type of the value which begins with the token -/
def typeOf : Peeked → Option ValueType
  | .objectStart => some .object
  | .arrayStart => some .array
  | .stringStart => some .string
  | .numberStart => some .number
  | .null => some .null
  | .booleanTrue => some .boolean
  | .booleanFalse => some .boolean
  | _ => none

theorem startsWith {p : Peeked} {r : Bytes} {t : ValueType} (h : Follow p r) (ht : typeOf p = some t) : StartsWith t (tokBytes p ++ r) := by
  cases p <;> cases ht
  case null => exact ⟨r, rfl⟩
  case booleanTrue => exact .inl ⟨r, rfl⟩
  case booleanFalse => exact .inr ⟨r, rfl⟩
  case numberStart =>
    obtain ⟨b, t, rfl, hb⟩ := h
    exact ⟨b, t, rfl, hb⟩
  all_goals exact ⟨_, r, rfl, rfl⟩

theorem Ready.mapPeeked {p : Peeked} (h : Ready F x y (some p) s) : Wp (Reader.mapPeeked p) s (fun t s' => s' = s ∧ typeOf p = some t) (EL F) := by
  cases p
  case arrayEnd => exact Wp.of_err rfl (h.el rfl (.inr ⟨0x5D, s.src.rest, h.rest, .inl rfl⟩))
  case objectEnd => exact internal_wp
  case nameStart => exact internal_wp
  all_goals exact Wp.pure ⟨rfl, rfl⟩

theorem tok_plain (p : Peeked) : Plain (tokBytes p) := by
  cases p <;> simp only [tokBytes, nullBytes, trueBytes, falseBytes] <;> first | exact plain_nil | (repeat first | refine plain_cons ⟨by decide, by decide, by decide⟩ ?_ | exact plain_nil)

theorem tok_length (p : Peeked) : (tokBytes p).length = peekedLength p := by cases p <;> rfl

/-- the peeked token has been consumed -/
theorem Ready.consume {p : Peeked} (h : Ready F x y (some p) s) : Wp consumePeeked s (fun _ s' => ∃ x' y', At F x' y' [] none s' ∧ NoSplit x' y' ∧ Follow p y') (EL F) := by
  unfold consumePeeked
  refine Wp.get ?_
  rw [h.peeked]
  refine Wp.bind (Wp.pure (Wp.set ?_))
  have hpos : posOf (x ++ tokBytes p) = ⟨s.line, s.column + peekedLength p, s.bytePos + peekedLength p⟩ := by
    rw [posOf_plain (tok_plain p), ← h.pos, tok_length]
    rfl
  refine ⟨x ++ tokBytes p, s.src.rest, ⟨?_, rfl, hpos.symm, rfl, h.path, h.behind, h.st, Nat.le_trans h.lo (by rw [List.length_append]; omega), h.term, h.obj⟩, ?_, h.follow _ rfl⟩
  · rw [h.inp, h.rest, List.append_assoc]; rfl
  · have := h.split
    rw [h.rest] at this
    exact noSplit_plain (tok_plain p) this

theorem Ready.start {e : ValueType} {cd : Bool} (hcd : cd = true → e = .array ∨ e = .object) (h : Ready F x y pk s) :
    Wp (startExpectedValueType e cd) s (fun p s' => typeOf p = some e ∧ ∃ x' y', At F x' y' [] none s' ∧ NoSplit x' y' ∧ Follow p y') (EL F) := by
  unfold startExpectedValueType
  refine Wp.get (Wp.ite (fun _ => usage_wp) fun _ => ?_)
  refine Wp.bind' h.peek ?_
  rintro p s1 ⟨x1, y1, h1⟩
  refine Wp.bind' h1.mapPeeked ?_
  rintro t _ ⟨rfl, ht⟩
  have hs : StartsWith t y1 := by rw [h1.rest]; exact startsWith (h1.follow _ rfl) ht
  refine Wp.get (Wp.ite (fun he => ?_) fun he => ?_)
  · have he := eq_of_beq he
    subst he
    cases cd with
    | false =>
      refine Wp.bind' h1.consume ?_
      rintro _ s2 h2
      exact Wp.pure ⟨ht, h2⟩
    | true =>
      rw [if_pos rfl]
      cases depthExceeded _ with
      | none =>
        refine Wp.bind' h1.consume ?_
        rintro _ s2 h2
        exact Wp.pure ⟨ht, h2⟩
      | some max =>
        refine Wp.fail (h1.el rfl ?_)
        rcases hcd rfl with rfl | rfl
        · obtain ⟨b, t, h3, h4⟩ := hs
          exact ⟨b, t, h3, .inl h4⟩
        · obtain ⟨b, t, h3, h4⟩ := hs
          exact ⟨b, t, h3, .inr h4⟩
  · exact Wp.fail (h1.el rfl ⟨fun h => he (by rw [h]; exact beq_self_eq_true _), hs⟩)

end

end Verif.Where

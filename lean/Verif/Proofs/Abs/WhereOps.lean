import Verif.Proofs.Abs.WherePeek
/-! # Locations of errors: strings, numbers and methods -/

namespace Verif.Where
open Reader Utf8 Json ErrorLocation Abs

section
variable {F : Fr} {x y d : Bytes} {pk : Option Peeked} {s s' : St} {α β : Type}

/-! ## Strings -/

theorem At.acc (h : At F x y d pk s) (a : Bytes) : At F x y d pk (setAcc s a) := ⟨h.inp, h.rest, h.pos, h.peeked, h.path, h.behind, h.st, h.lo, h.term, h.obj⟩

theorem simpleEscape_cases {b c : UInt8} (h : simpleEscape b = some c) : b ∈ ([0x22, 0x5C, 0x2F, 0x62, 0x66, 0x6E, 0x72, 0x74] : Bytes) := by
  unfold simpleEscape at h
  simp only [List.mem_cons, List.not_mem_nil, or_false]
  split at h
  · rename_i hb; simp at hb; rcases hb with (hb | hb) | hb <;> simp [hb]
  split at h
  · rename_i hb; simp at hb; simp [hb]
  split at h
  · rename_i hb; simp at hb; simp [hb]
  split at h
  · rename_i hb; simp at hb; simp [hb]
  split at h
  · rename_i hb; simp at hb; simp [hb]
  split at h
  · rename_i hb; simp at hb; simp [hb]
  · cases h

theorem simpleEscape_none {b : UInt8} (h : simpleEscape b = none) (hu : ¬ (b == 0x75) = true) : b ∉ escapes := by
  unfold simpleEscape at h
  intro hb
  simp only [escapes, List.mem_cons, List.not_mem_nil, or_false] at hb
  rcases hb with rfl | rfl | rfl | rfl | rfl | rfl | rfl | rfl | rfl <;> first | exact hu rfl | exact absurd h (by decide)

theorem simpleEscape_plain {b c : UInt8} (h : simpleEscape b = some c) : Plain [0x5C, b] := by
  have := simpleEscape_cases h
  simp only [List.mem_cons, List.not_mem_nil, or_false] at this
  refine plain_cons ⟨by decide, by decide, by decide⟩ ?_
  rcases this with rfl | rfl | rfl | rfl | rfl | rfl | rfl | rfl <;> exact plain_byte (by decide) (by decide) (by decide)

theorem At.backslash (h : At F x y [0x5C] pk s) (hr : s.src.rest = []) : SyntaxPoints .malformedEscapeSequence y := by
  rw [h.rest, hr]
  exact .inl rfl

theorem At.unknown {b : UInt8} (h : At F x y [0x5C, b] pk s) (h1 : simpleEscape b = none) (h2 : ¬ (b == 0x75) = true) : SyntaxPoints .unknownEscapeSequence y := by
  rw [h.rest]
  exact ⟨_, rfl, b, _, rfl, simpleEscape_none h1 h2⟩

theorem At.prefixU (h : At F x y [0x5C, 0x75] pk s) : y = 0x5C :: 0x75 :: s.src.rest := h.rest

theorem uPlain {bs : Bytes} (h : Plain bs) : Plain ([0x5C, 0x75] ++ bs) := plain_cons ⟨by decide, by decide, by decide⟩ (plain_cons ⟨by decide, by decide, by decide⟩ h)

theorem noSplit_char {c : Char} {r : Bytes} (h1 : c ≠ '\n') (h2 : c ≠ '\r') : NoSplit (x ++ String.utf8EncodeChar c) r := by
  intro hl
  rw [noCr_append' (encodeChar_ne_nil c)] at hl
  exact absurd (List.mem_of_getLast? hl) (noBreak_char h1 h2).2

/-- the position behind the string or a char of it -/
def Str1 (F : Fr) (s : St) : Prop := ∃ x y, At F x y [] none s ∧ NoSplit x y

theorem At.plainByte {b : UInt8} {t : Bytes} (h : At F x (b :: t) [b] none s) (hn : NoSplit x (b :: t)) (h0 : ¬ b < 0x20) (h1 : b < 0x80) {Q : Unit → St → Prop} (hQ : ∀ s', Str1 F s' → Q () s') :
    Wp (advance 1 1) s Q (EL F) := by
  have hp : Plain [b] := by
    refine plain_byte h1 ?_ ?_
    · rintro rfl; exact h0 (by decide)
    · rintro rfl; exact h0 (by decide)
  refine h.plain hp rfl fun s' h2 _ => hQ s' ⟨_, _, h2, ?_⟩
  have hr := h.rest
  cases hr
  exact noSplit_plain hp hn

theorem At.multi {keep : Bool} {rb : SyntaxKind → R AbsSrc UInt8} (hrb : IsRb keep rb) {b : UInt8} (h : At F x y [b] none s) (h1 : ¬ b < 0x80) {f : Bytes → R AbsSrc β} {Q : β → St → Prop}
    (hQ : ∀ bytes s', Str1 F s' → Wp (f bytes) s' Q (EL F)) : Wp (do let bytes ← readUtf8Multibyte rb b; advance 1 bytes.length; f bytes) s Q (EL F) := by
  refine Wp.bind' (h.multibyte hrb (by
    have : ¬ b.toNat < 0x80 := h1
    omega)) ?_
  rintro bytes s1 ⟨c, hc, h0, h2⟩
  have n1 : c ≠ '\n' := by rintro rfl; exact absurd h0 (by decide)
  have n2 : c ≠ '\r' := by rintro rfl; exact absurd h0 (by decide)
  refine Wp.bind (h2.char hc n1 n2 fun s3 h3 => hQ _ _ ⟨_, _, h3, ?_⟩)
  rw [← hc]
  exact noSplit_char n1 n2

theorem At.byte (h : At F x y [] none s) {k : SyntaxKind} {keep : Bool} {rb : SyntaxKind → R AbsSrc UInt8} (hrb : IsRb keep rb) (hk : SyntaxPoints k []) {f : UInt8 → R AbsSrc β} {Q : β → St → Prop}
    (hQ : ∀ b t s', y = b :: t → At F x (b :: t) [b] none s' → Wp (f b) s' Q (EL F)) : Wp (rb k >>= f) s Q (EL F) := by
  refine Wp.bind (isRb_wp hrb h (fun b t hr => ?_) fun hr s' => h.el rfl ?_ rfl)
  · have hy : y = b :: t := h.rest.trans hr
    subst hy
    exact hQ b t _ rfl (h.eat (keep := keep) (bs := [b]) hr)
  · have hy : y = [] := h.rest.trans hr
    subst hy
    exact hk

theorem quote_plain : Plain [0x22] := plain_byte (by decide) (by decide) (by decide)

theorem str1_stringBytes (h : Str1 F s) : Wp readStringBytes s (fun _ s' => Str1 F s') (EL F) := by
  obtain ⟨x, y, h, hn⟩ := h
  unfold readStringBytes
  refine h.byte isRb_readByte (by exact .inl rfl) fun b t s1 hy h1 => ?_
  subst hy
  refine Wp.ite (fun hb => ?_) fun _ => Wp.ite (fun hb => ?_) fun _ => Wp.ite (fun hb => ?_) fun h0 => Wp.ite (fun hb => ?_) fun h8 => ?_
  · have hb := eq_of_beq hb
    subst hb
    refine Wp.bind (isRb_wp isRb_readByte h1 (fun b t' hr => ?_) fun hr s' => h1.el rfl (h1.backslash hr) rfl)
    have h2 := h1.eat (keep := false) (bs := [b]) hr
    have ht : t = b :: t' := by have := h1.rest; rw [hr] at this; exact List.cons.inj this |>.2
    subst ht
    generalize eat false [b] t' s1 = s2 at h2
    cases he : simpleEscape b with
    | some c =>
      dsimp only
      refine Wp.bind (h2.plain (simpleEscape_plain he) rfl fun s3 h3 _ => Wp.pure ⟨_, _, h3, ?_⟩)
      have hr := h2.rest
      cases hr
      exact noSplit_plain (simpleEscape_plain he) hn
    | none =>
      dsimp only
      refine Wp.ite (fun hb => ?_) fun hb => h2.syn (k := .unknownEscapeSequence) (h2.unknown he hb)
      have hb := eq_of_beq hb
      subst hb
      refine Wp.bind' (h2.unicode isRb_readByte h2.prefixU) ?_
      rintro ⟨c, n⟩ s3 ⟨bs, hp, hl, h3⟩
      refine Wp.bind (h3.plain (uPlain hp) (n := 2 + n) (by rw [List.length_append, ← hl]; rfl) fun s4 h4 _ => Wp.pure ⟨_, _, h4, ?_⟩)
      rw [h3.rest] at hn
      exact noSplit_plain (uPlain hp) hn
  · have hb := eq_of_beq hb
    subst hb
    refine Wp.bind (h1.plain quote_plain rfl fun s3 h3 _ => Wp.pure ⟨_, _, h3, ?_⟩)
    rw [h1.rest] at hn
    exact noSplit_plain quote_plain hn
  · exact h1.syn (k := .notEscapedControlCharacter) ⟨b, t, rfl, hb⟩
  · exact Wp.bind (h1.plainByte hn h0 hb fun s' h' => Wp.pure h')
  · exact h1.multi isRb_readByte h8 fun _ _ h => Wp.pure h

theorem str1_skipAllLoop : ∀ {f : Nat} {s : St}, Str1 F s → Wp (skipAllStringBytesLoop f) s (fun _ s' => Str1 F s') (EL F) := by
  intro f
  induction f with
  | zero => intro s _; exact Wp.of_err rfl .fuel
  | succ f ih =>
    intro s h
    unfold skipAllStringBytesLoop
    refine Wp.bind' (str1_stringBytes h) ?_
    rintro ⟨re, _⟩ s1 h1
    exact Wp.ite (fun _ => Wp.pure h1) fun _ => ih h1

theorem str1_skipAll (h : Str1 F s) : Wp skipAllStringBytes s (fun _ s' => Str1 F s') (EL F) := Wp.get (str1_skipAllLoop h)

theorem At.stringEscape {t : Bytes} (h : At F x (0x5C :: t) [0x5C] none s) (hn : NoSplit x (0x5C :: t)) : Wp readStringEscape s (fun _ s' => Str1 F s') (EL F) := by
  unfold readStringEscape
  refine Wp.bind_ok (a := ()) (s' := setAcc s s.src.acc.dropLast) rfl ?_
  have h1 := h.acc s.src.acc.dropLast
  generalize setAcc s s.src.acc.dropLast = s1 at h1
  refine Wp.bind (isRb_wp isRb_vReadByte h1 (fun b t' hr => ?_) fun hr s' => h1.el rfl (h1.backslash hr) rfl)
  have h2 := h1.eat (keep := true) (bs := [b]) hr
  have ht : t = b :: t' := by have := h1.rest; rw [hr] at this; exact List.cons.inj this |>.2
  subst ht
  generalize Abs.eat true [b] t' s1 = s2 at h2
  cases he : simpleEscape b with
  | some c =>
    dsimp only
    have fin : ∀ {s : St}, At F x (0x5C :: b :: t') ([0x5C] ++ [b]) none s → Wp (advance 2 2) s (fun _ s' => Str1 F s') (EL F) := by
      intro s h
      refine h.plain (simpleEscape_plain he) rfl fun s3 h3 _ => ⟨_, _, h3, ?_⟩
      rw [h.rest] at hn
      exact noSplit_plain (simpleEscape_plain he) hn
    refine Wp.ite (fun _ => fin h2) fun _ => ?_
    refine Wp.bind_ok (a := ()) (s' := setAcc s2 s2.src.acc.dropLast) rfl ?_
    have h3 := h2.acc s2.src.acc.dropLast
    generalize setAcc s2 s2.src.acc.dropLast = s3 at h3
    refine Wp.bind_ok (a := ()) (s' := setAcc s3 (s3.src.acc ++ [c])) rfl ?_
    exact fin (h3.acc _)
  | none =>
    dsimp only
    refine Wp.ite (fun hb => ?_) fun hb => h2.syn (k := .unknownEscapeSequence) (h2.unknown he hb)
    have hb := eq_of_beq hb
    subst hb
    refine Wp.bind_ok (a := ()) (s' := setAcc s2 s2.src.acc.dropLast) rfl ?_
    have h3 : At F x _ [0x5C, 0x75] none _ := h2.acc s2.src.acc.dropLast
    generalize setAcc s2 s2.src.acc.dropLast = s3 at h3
    refine Wp.bind' (h3.unicode isRb_vReadByteSkip h3.prefixU) ?_
    rintro ⟨c, n⟩ s4 ⟨bs, hp, hl, h4⟩
    refine Wp.bind (Wp.modify ?_)
    refine Wp.bind_ok (a := ()) (s' := setAcc { s4 with column := s4.column + n, bytePos := s4.bytePos + n } (s4.src.acc ++ String.utf8EncodeChar c)) rfl ?_
    refine Wp.modify ⟨x ++ ([0x5C, 0x75] ++ bs), s4.src.rest, h4.move ?_ rfl rfl rfl rfl rfl rfl rfl rfl, ?_⟩
    · rw [posOf_plain (uPlain hp), ← h4.pos]
      have hl : n = bs.length := hl
      subst hl
      show (⟨s4.line, s4.column + bs.length + 2, s4.bytePos + bs.length + 2⟩ : Pos) = ⟨s4.line, s4.column + (bs.length + 2), s4.bytePos + (bs.length + 2)⟩
      rw [Nat.add_assoc, Nat.add_assoc]
    · rw [h4.rest] at hn
      exact noSplit_plain (uPlain hp) hn

theorem str1_readLoop {rq : Bool} : ∀ {f : Nat} {s : St}, Str1 F s → Wp (readStringLoop rq f) s (fun _ s' => Str1 F s') (EL F) := by
  intro f
  induction f with
  | zero => intro s _; exact Wp.of_err rfl .fuel
  | succ f ih =>
    rintro s ⟨x, y, h, hn⟩
    unfold readStringLoop
    refine h.byte isRb_vReadByte (by exact .inl rfl) fun b t s1 hy h1 => ?_
    subst hy
    refine Wp.ite (fun hb => ?_) fun _ => Wp.ite (fun hb => ?_) fun _ => Wp.ite (fun hb => ?_) fun h0 => Wp.ite (fun hb => ?_) fun h8 => ?_
    · have hb := eq_of_beq hb
      subst hb
      exact Wp.bind' (h1.stringEscape hn) fun _ _ h => ih h
    · have hb := eq_of_beq hb
      subst hb
      refine Wp.bind (h1.plain quote_plain rfl fun s3 h3 _ => ?_)
      refine Wp.bind_ok (a := ()) (s' := setAcc s3 s3.src.acc.dropLast) rfl ?_
      refine Wp.of_ok (a := ()) (s' := setAcc s3 s3.src.acc.dropLast) rfl ⟨_, _, h3.acc _, ?_⟩
      rw [h1.rest] at hn
      exact noSplit_plain quote_plain hn
    · exact h1.syn (k := .notEscapedControlCharacter) ⟨b, t, rfl, hb⟩
    · exact Wp.bind (h1.plainByte hn h0 hb fun s' h' => ih h')
    · exact h1.multi isRb_vReadByte h8 fun _ _ h => ih h

theorem str1_readString {rq : Bool} (h : Str1 F s) : Wp (readString rq) s (fun _ s' => Str1 F s') (EL F) := by
  unfold readString
  obtain ⟨x, y, h, hn⟩ := h
  exact Wp.bind_ok (a := ()) (s' := setAcc s []) rfl (Wp.get (str1_readLoop ⟨x, y, h.acc _, hn⟩))

/-! ## State behind a method -/

/-- state behind a method; the path can have changed -/
def Nx (F : Fr) (s : St) : Prop := ∃ p b x y pk, Ready { F with path := p, behind := b } x y pk s

theorem Str1.ready (h : Str1 F s) : ∃ x y, Ready F x y none s := by
  obtain ⟨x, y, h, hn⟩ := h
  exact ⟨x, y, h, hn, (by rintro _ ⟨⟩), nofun, nofun, fun h => absurd rfl h⟩

theorem Str1.nx (h : Str1 F s) : Nx F s := by
  obtain ⟨x, y, h⟩ := h.ready
  exact ⟨F.path, F.behind, x, y, none, h⟩

/-- the reported position and the input are unchanged -/
structure SameAt (s s' : St) : Prop where
  src : s'.src.rest = s.src.rest
  term : s'.src.term = s.src.term
  pos : Abs.pos s' = Abs.pos s
  peeked : s'.peeked = s.peeked
  st : s'.settings = s.settings
  obj : (s.expectsMemberName = true → isInObject s = true) → s'.expectsMemberName = true → isInObject s' = true

theorem Str1.same (h : Str1 F s) (e : SameAt s s') : Nx F s' := by
  obtain ⟨x, y, h, hn⟩ := h
  refine ⟨s'.path, isBehindTopLevel s', x, y, none, ⟨⟨h.inp, ?_, e.pos.trans h.pos, e.peeked.trans h.peeked, rfl, rfl, e.st.trans h.st, h.lo, e.term.trans h.term, e.obj h.obj⟩, hn, (by rintro _ ⟨⟩), nofun, nofun, fun h => absurd rfl h⟩⟩
  rw [e.src]
  exact h.rest

theorem onValueEnd_wp : Wp onValueEnd s (fun _ s' => SameAt s s') (EL F) := by
  unfold onValueEnd
  refine Wp.get (Wp.bind ?_)
  have fin : ∀ p, Wp (M.set { s with path := p, expectsMemberName := if isInObject s then true else s.expectsMemberName, isEmpty := false }) s (fun _ s' => SameAt s s') (EL F) :=
    fun p => Wp.set ⟨rfl, rfl, rfl, rfl, rfl, fun h he => by
      by_cases ho : isInObject s = true
      · exact ho
      · exact h (by simpa [ho] using he)⟩
  split
  · split
    · exact Wp.pure (fin _)
    · exact internal_wp
    · exact internal_wp
  · exact Wp.pure (fin _)

theorem onContainerEnd_wp (h : s.expectsMemberName = false) : Wp onContainerEnd s (fun _ s' => SameAt s s') (EL F) := by
  unfold onContainerEnd
  refine Wp.bind (Wp.modify ?_)
  refine (onValueEnd_wp (F := F)).post ?_
  rintro _ s' ⟨h1, h2, h3, h4, h5, h6⟩
  exact ⟨h1, h2, h3, h4, h5, fun _ => h6 fun he => by rw [show _ = s.expectsMemberName from rfl] at he; rw [h] at he; cases he⟩

theorem setPathName_wp {name : Text} : Wp (setPathName name) s (fun _ s' => SameAt s s') (EL F) := by
  unfold setPathName
  refine Wp.get ?_
  split
  · exact Wp.pure ⟨rfl, rfl, rfl, rfl, rfl, id⟩
  · exact Wp.set ⟨rfl, rfl, rfl, rfl, rfl, id⟩
  · exact internal_wp
  · exact internal_wp

theorem getStr_acc : Wp (liftS AbsSrc.getStr) s (fun t s' => s' = setAcc s [] ∧ enc t = s.src.acc) (EL F) := by
  unfold Wp liftS AbsSrc.getStr
  dsimp only
  cases h : Utf8.toStrUnchecked s.src.acc with
  | none => exact .panic
  | some t => exact ⟨rfl, (Utf8.enc_of_decodeUtf8 h).symm⟩

theorem getStr_wp : Wp (liftS AbsSrc.getStr) s (fun t s' => SameAt s s' ∧ enc t = s.src.acc) (EL F) :=
  getStr_acc.post fun _ _ ⟨h1, h2⟩ => ⟨h1 ▸ ⟨rfl, rfl, rfl, rfl, rfl, id⟩, h2⟩

theorem getStrPeek_wp : Wp (liftS AbsSrc.getStrPeek) s (fun _ s' => SameAt s s') (EL F) := by
  unfold Wp liftS AbsSrc.getStrPeek
  dsimp only
  cases h : Utf8.toStrUnchecked s.src.acc with
  | none => exact .panic
  | some t => exact ⟨rfl, rfl, rfl, rfl, rfl, id⟩

theorem SameAt.trans {s1 s2 s3 : St} (h : SameAt s1 s2) (h' : SameAt s2 s3) : SameAt s1 s3 :=
  ⟨h'.src.trans h.src, h'.term.trans h.term, h'.pos.trans h.pos, h'.peeked.trans h.peeked, h'.st.trans h.st, fun hj => h'.obj (h.obj hj)⟩

/-! ## Numbers -/

theorem numberByte_iff {b : UInt8} : NumberByte b ↔ isNumberChar b = true := by
  have : ∀ n : Fin 256, NumberByte (UInt8.ofNat n) ↔ isNumberChar (UInt8.ofNat n) = true := by
    unfold NumberByte
    decide +kernel
  have h := this ⟨b.toNat, b.toNat_lt⟩
  simpa using h

theorem At.finishNumber {bs : Bytes} (h : At F x y bs none s) (hn : NoSplit x y) (hp : Plain bs) (hst : JsonNumber.NumStop s.src.rest) : Wp (finishNumber bs.length) s (fun _ s' => Nx F s') (EL F) := by
  unfold Reader.finishNumber
  refine Wp.bind (h.plain hp rfl fun s1 h1 hs => ?_)
  have hn1 : NoSplit (x ++ bs) s.src.rest := by rw [h.rest] at hn; exact noSplit_plain hp hn
  refine Wp.bind' (h1.separator (k := .trailingDataAfterNumber) fun hr => ?_) ?_
  · obtain ⟨b, t, hr1, hr2⟩ := hr
    refine ⟨b, t, h1.rest.trans hr1, hr2, fun hb => ?_⟩
    have hb' : s.src.rest.head? = some b := by rw [h1.rest.trans hr1]; rfl
    have := hst b hb'
    rw [numberByte_iff.1 hb] at this
    cases this
  · rintro _ _ ⟨rfl, _⟩
    exact onValueEnd_wp.post fun _ _ e => Str1.same ⟨_, _, h1, hn1⟩ e

theorem At.consumeNumber {keep : Bool} {create consume : R AbsSrc Unit} {peek : R AbsSrc (Option UInt8)} {s1 : St} (h : At F x y [] none s) (hf : Follow .numberStart y)
    (hcr : create.run s = .ok () s1) (hs1 : s1 = setAcc s [] ∨ s1 = s)
    (hc : ∀ {s : St} {b : UInt8} {t : Bytes}, s.src.rest = b :: t → consume.run s = .ok () (Abs.eat keep [b] t s))
    (hp : ∀ {s : St}, s.src.term = none → peek.run s = .ok s.src.rest.head? s) :
    Wp (Reader.consumeNumber create consume peek) s (fun res s' => ∃ bs, Plain bs ∧ res.2 = bs.length ∧ At F x y bs none s' ∧ (keep = true → s'.src.acc = s1.src.acc ++ bs) ∧ JsonNumber.NumStop s'.src.rest) (EL F) := by
  obtain ⟨b, t, rfl, hb⟩ := hf
  have hr : s.src.rest = b :: t := h.rest.symm
  have h1 : At F x (b :: t) [] none s1 := by rcases hs1 with rfl | rfl; exact h.acc _; exact h
  have hsr : s1.src.rest = s.src.rest := by rcases hs1 with rfl | rfl <;> rfl
  refine (wp_and (consumeNumber_lo hcr hsr h1.term hc hp hr) (E' := fun e s' => e = .syntax .malformedNumber (loc s) ∧ (JsonNumber.numL s.src.rest).1 = none) (Q' := fun _ s' => JsonNumber.NumStop s'.src.rest) ?_).mono ?_ ?_
  · obtain ⟨pre, h2, h3⟩ := consumeNumber_spec hcr hsr h1.term hc hp hr
    cases hn : (JsonNumber.numL s.src.rest).1 with
    | none =>
      rw [hn] at h3
      refine Wp.of_err h3 ⟨?_, rfl⟩
      rcases hs1 with rfl | rfl <;> rfl
    | some k =>
      rw [hn] at h3
      obtain ⟨_, _, _, _, h4⟩ := JsonNumber.numL_sound (l := s.src.rest) (l' := (JsonNumber.numL s.src.rest).2) (k := k) (by rw [← hn])
      exact Wp.of_ok h3 h4
  · rintro res s' ⟨⟨bs, r, h2, h3, h4, rfl⟩, h5⟩
    refine ⟨bs, isNumber_plain h2.isNumber, h4, ?_, ?_⟩
    · exact h1.eat (keep := keep) (bs := bs) (hsr.trans h3)
    · exact ⟨by rintro rfl; rfl, h5⟩
  · rintro e s' ⟨_, rfl, hn⟩
    refine h.el (e := .syntax .malformedNumber (loc s)) rfl ⟨⟨b, t, rfl, hb⟩, ?_⟩ rfl
    rintro n t' hy ⟨p, hpv, rfl⟩
    rw [hr, hy] at hn
    cases t' with
    | nil =>
      rw [JsonNumber.numL_complete hpv (by intro b hb; cases hb)] at hn
      cases hn
    | cons c t' =>
      cases hc : isNumberChar c with
      | true => exact ⟨c, t', rfl, numberByte_iff.2 hc⟩
      | false =>
        rw [JsonNumber.numL_complete hpv (by rintro _ ⟨⟩; exact hc)] at hn
        cases hn

end

end Verif.Where

import Verif.Spec.ErrorLocation
import Verif.Proofs.Abs.Position
/-! # Locations of errors: bytes, whitespace and strings -/

namespace Verif.Where
open Reader Utf8 Json ErrorLocation Abs

/-- what does not change while a token is read; `n0` is the position at the start of the call -/
structure Fr where
  inp : Bytes
  path : Option (List PathPiece)
  behind : Bool
  st : Settings
  n0 : Nat

/-- The reported position is the one behind `x`, `y` is the remaining input; its beginning `d` has been consumed but is not part of the position yet. -/
structure At (F : Fr) (x y d : Bytes) (pk : Option Peeked) (s : St) : Prop where
  inp : F.inp = x ++ y
  rest : y = d ++ s.src.rest
  pos : Abs.pos s = posOf x
  peeked : s.peeked = pk
  path : s.path = F.path
  behind : isBehindTopLevel s = F.behind
  st : s.settings = F.st
  lo : F.n0 ≤ x.length
  term : s.src.term = none
  obj : s.expectsMemberName = true → isInObject s = true

/-- the location of the error is right -/
def Wh (F : Fr) (e : RErr) : Prop := ∀ l, location e = some l →
  ∃ x y, F.inp = x ++ y ∧ (⟨l.line, l.column, l.dataPos⟩ : Pos) = posOf x ∧ l.path = F.path.map List.reverse ∧ F.n0 ≤ x.length ∧ Points e y

/-- consumed bytes of the peeked token -/
def tb : Option Peeked → Bytes
  | none => []
  | some p => tokBytes p

/-- state between two calls -/
structure Ready (F : Fr) (x y : Bytes) (pk : Option Peeked) (s : St) : Prop extends At F x y (tb pk) pk s where
  split : NoSplit x y
  follow : ∀ p, pk = some p → Follow p s.src.rest
  objEnd : pk = some .objectEnd → s.expectsMemberName = true
  arrEnd : pk = some .arrayEnd → s.expectsMemberName = false
  multi : pk ≠ none → F.behind = true → F.st.allowMultipleTopLevel = true

def isUnsupported : RErr → Bool
  | .unsupportedNumberValue _ _ => true
  | _ => false

/-- condition for errors -/
def EL (F : Fr) (e : RErr) (s : St) : Prop := Wh F e ∧ (e.fatal = false → isUnsupported e = false → ∃ x y pk, Ready F x y pk s)

theorem posOf_plain {x d : Bytes} (h : Plain d) : posOf (x ++ d) = ⟨(posOf x).line, (posOf x).col + d.length, (posOf x).byte + d.length⟩ := by
  rw [← posOf_over h.noBreak.right, Pos.over_plain _ h]

section
variable {F : Fr} {x y d : Bytes} {pk : Option Peeked} {s s' : St} {α β : Type}

theorem At.wh (h : At F x y d pk s) {e : RErr} {l : Position} (hl : location e = some l) (he : l = loc s) (hp : Points e y) : Wh F e := by
  intro l' hl'
  rw [hl] at hl'
  cases hl'
  subst he
  refine ⟨x, y, h.inp, h.pos, ?_, h.lo, hp⟩
  show s.path.map List.reverse = _
  rw [h.path]

theorem At.el (h : At F x y d pk s) {e : RErr} (hl : location e = some (loc s)) (hp : Points e y) (hf : e.fatal = true) : EL F e s' :=
  ⟨h.wh hl rfl hp, fun h => by rw [hf] at h; cases h⟩

theorem At.syn (h : At F x y d pk s) {k : SyntaxKind} (hp : SyntaxPoints k y) {Q : α → St → Prop} : Wp (syntaxErr k) s Q (EL F) :=
  Wp.of_err rfl (h.el rfl hp rfl)

theorem At.utf8 (h : At F x y d pk s) (hp : Head (0x80 ≤ ·.toNat) y) {Q : α → St → Prop} : Wp (ioErr .invalidUtf8) s Q (EL F) :=
  Wp.of_err rfl (h.el rfl hp rfl)

theorem EL.fuel : EL F .outOfFuel s := ⟨(fun _ h => by cases h), (fun h => by cases h)⟩
theorem EL.panic {p : Panic} : EL F (.panic p) s := ⟨(fun _ h => by cases h), (fun h => by cases h)⟩

theorem usage_wp {p : UsagePanic} {Q : α → St → Prop} : Wp (usagePanic p) s Q (EL F) := Wp.of_err rfl .panic
theorem internal_wp {p : InternalPanic} {Q : α → St → Prop} : Wp (internalPanic p) s Q (EL F) := Wp.of_err rfl .panic

theorem unwrap_wp {o : Option α} {Q : α → St → Prop} (h : ∀ a, o = some a → Q a s) : Wp (unwrap o) s Q (EL F) := by
  cases o
  · exact internal_wp
  · exact h _ rfl

/-- an operation of the value reader which does not read -/
theorem At.eq (h : At F x y d pk s) (hs : s'.src.rest = s.src.rest) (ht : s'.src.term = s.src.term) (hp : Abs.pos s' = Abs.pos s) (h1 : s'.peeked = s.peeked) (h2 : s'.path = s.path)
    (h3 : isBehindTopLevel s' = isBehindTopLevel s) (h4 : s'.settings = s.settings) (h5 : s'.expectsMemberName = s.expectsMemberName) (h6 : isInObject s' = isInObject s) : At F x y d pk s' :=
  ⟨h.inp, by rw [hs]; exact h.rest, hp.trans h.pos, h1.trans h.peeked, h2.trans h.path, h3.trans h.behind, h4.trans h.st, h.lo, ht.trans h.term, by rw [h5, h6]; exact h.obj⟩

theorem At.eat (h : At F x y d pk s) {bs r : Bytes} {keep : Bool} (hr : s.src.rest = bs ++ r) : At F x y (d ++ bs) pk (eat keep bs r s) :=
  ⟨h.inp, by rw [h.rest, hr, eat_rest, List.append_assoc], h.pos, h.peeked, h.path, h.behind, h.st, h.lo, h.term, h.obj⟩

theorem At.move (h : At F x y d pk s) (hp : Abs.pos s' = posOf (x ++ d)) (hs : s'.src.rest = s.src.rest) (ht : s'.src.term = s.src.term) (h1 : s'.peeked = s.peeked) (h2 : s'.path = s.path)
    (h3 : isBehindTopLevel s' = isBehindTopLevel s) (h4 : s'.settings = s.settings) (h5 : s'.expectsMemberName = s.expectsMemberName) (h6 : isInObject s' = isInObject s) : At F (x ++ d) s.src.rest [] pk s' :=
  ⟨by rw [List.append_assoc, ← h.rest]; exact h.inp, by rw [hs]; rfl, hp, h1.trans h.peeked, h2.trans h.path, h3.trans h.behind, h4.trans h.st,
    Nat.le_trans h.lo (by rw [List.length_append]; omega), ht.trans h.term, by rw [h5, h6]; exact h.obj⟩

theorem At.plain (h : At F x y d pk s) (hd : Plain d) {n : Nat} (hn : d.length = n) {Q : Unit → St → Prop} (hQ : ∀ s', At F (x ++ d) s.src.rest [] pk s' → s'.src = s.src → Q () s') :
    Wp (advance n n) s Q (EL F) := by
  refine Wp.modify (hQ _ (h.move ?_ rfl rfl rfl rfl rfl rfl rfl rfl) rfl)
  rw [posOf_plain hd, ← h.pos, hn]
  rfl

theorem At.char (h : At F x y d pk s) {c : Char} (hd : String.utf8EncodeChar c = d) (h1 : c ≠ '\n') (h2 : c ≠ '\r') {Q : Unit → St → Prop}
    (hQ : ∀ s', At F (x ++ d) s.src.rest [] pk s' → Q () s') : Wp (advance 1 d.length) s Q (EL F) := by
  refine Wp.modify (hQ _ (h.move ?_ rfl rfl rfl rfl rfl rfl rfl rfl))
  rw [← posOf_over (by rw [← hd]; exact (noBreak_char h1 h2).right), ← h.pos]
  unfold Pos.over
  rw [← hd, posRun_char _ h1 h2]
  rfl

/-! ## Bytes -/

theorem At.peekByte (h : At F x y d pk s) {f : Option UInt8 → R AbsSrc β} {Q : β → St → Prop} (hQ : Wp (f s.src.rest.head?) s Q (EL F)) : Wp (Reader.peekByte >>= f) s Q (EL F) :=
  Wp.bind_ok (peekByte_run h.term) hQ

theorem isRb_wp {keep : Bool} {rb : SyntaxKind → R AbsSrc UInt8} (h : IsRb keep rb) (ha : At F x y d pk s) {k : SyntaxKind} {E : RErr → St → Prop} {Q : UInt8 → St → Prop}
    (hQ : ∀ b t, s.src.rest = b :: t → Q b (eat keep [b] t s)) (hE : s.src.rest = [] → ∀ s', E (.syntax k (loc s)) s') : Wp (rb k) s Q E := by
  cases hr : s.src.rest with
  | nil =>
    obtain ⟨s', h'⟩ := h.nil k hr ha.term
    exact Wp.of_err h' (hE hr s')
  | cons b t => exact Wp.of_ok (h.cons k hr) (hQ b t hr)

theorem wp_and {m : R AbsSrc α} {Q Q' : α → St → Prop} {E E' : RErr → St → Prop} (h : Wp m s Q E) (h' : Wp m s Q' E') : Wp m s (fun a s => Q a s ∧ Q' a s) (fun e s => E e s ∧ E' e s) := by
  unfold Wp at *
  split <;> rename_i hm <;> rw [hm] at h h' <;> exact ⟨h, h'⟩

section
variable {keep : Bool} {rb : SyntaxKind → R AbsSrc UInt8} (hrb : IsRb keep rb)
include hrb

/-- errors of `read_utf8_multibyte` -/
theorem multibyte_err (h : At F x y d pk s) (b0 : UInt8) :
    Wp (readUtf8Multibyte rb b0) s (fun _ _ => True) (fun e _ => e = .io .invalidUtf8 (loc s) ∨ (e = .syntax .incompleteDocument (loc s) ∧ s.src.rest.length < 3) ∨ ∃ p, e = .panic p) := by
  have hv : ∀ {v : Option Bool} {bs : Bytes} {s1 : St}, loc s1 = loc s → Wp (checkValid v bs) s1 (fun _ _ => True)
      (fun e _ => e = .io .invalidUtf8 (loc s) ∨ (e = .syntax .incompleteDocument (loc s) ∧ s.src.rest.length < 3) ∨ ∃ p, e = .panic p) := by
    intro v bs s1 hl
    rcases v with _ | _ | _
    · exact Wp.of_err rfl (.inr (.inr ⟨_, rfl⟩))
    · exact Wp.of_err rfl (.inl (by rw [hl]))
    · trivial
  unfold readUtf8Multibyte
  refine Wp.bind (isRb_wp hrb h (fun b1 t1 hr1 => ?_) fun hr _ => .inr (.inl ⟨rfl, by rw [hr]; decide⟩))
  have h1 := h.eat (keep := keep) (bs := [b1]) hr1
  refine Wp.ite (fun _ => Wp.of_err rfl (.inl rfl)) fun _ => Wp.ite (fun _ => hv rfl) fun _ => ?_
  refine Wp.bind (isRb_wp hrb h1 (fun b2 t2 hr2 => ?_) fun hr _ => .inr (.inl ⟨rfl, by rw [eat_rest] at hr; rw [hr1, hr]; exact Nat.lt_of_sub_eq_succ rfl⟩))
  rw [eat_rest] at hr2
  have h2 := h1.eat (keep := keep) (bs := [b2]) hr2
  refine Wp.ite (fun _ => Wp.of_err rfl (.inl rfl)) fun _ => Wp.ite (fun _ => hv rfl) fun _ => Wp.ite (fun _ => ?_) fun _ => Wp.of_err rfl (.inl rfl)
  refine Wp.bind (isRb_wp hrb h2 (fun b3 t3 hr3 => ?_) fun hr _ => .inr (.inl ⟨rfl, by rw [eat_rest] at hr; rw [hr1, hr2, hr]; exact Nat.lt_of_sub_eq_succ rfl⟩))
  exact Wp.ite (fun _ => Wp.of_err rfl (.inl rfl)) fun _ => hv rfl

/-- a character of more than one byte -/
theorem At.multibyte {b0 : UInt8} (h : At F x y [b0] pk s) (hb : 0x80 ≤ b0.toNat) :
    Wp (readUtf8Multibyte rb b0) s (fun bytes s' => ∃ c, String.utf8EncodeChar c = bytes ∧ 0x80 ≤ c.toNat ∧ At F x y bytes pk s') (EL F) := by
  refine (wp_and (readUtf8Multibyte_lo hrb h.term b0) (multibyte_err hrb h b0)).mono ?_ ?_
  · rintro bytes _ ⟨⟨c, tl, r, h1, h2, rfl, h3, rfl⟩, _⟩
    exact ⟨c, h1, h2, h.eat h3⟩
  · rintro e _ ⟨_, rfl | ⟨rfl, hl⟩ | ⟨p, rfl⟩⟩
    · exact h.el rfl ⟨b0, _, h.rest, hb⟩ rfl
    · refine h.el rfl (.inr ⟨⟨b0, _, h.rest, hb⟩, ?_⟩) rfl
      show y.length < 4
      rw [h.rest]
      simp only [List.cons_append, List.nil_append, List.length_cons]
      omega
    · exact .panic

theorem hex_err (h : At F x y d pk s) : Wp (readHexByte rb) s (fun _ s' => loc s' = loc s ∧ ∃ d', At F x y d' pk s') (fun e _ => e = .syntax .malformedEscapeSequence (loc s)) := by
  unfold readHexByte
  refine Wp.bind (isRb_wp hrb h (fun b t hr => ?_) fun _ _ => rfl)
  have h1 := h.eat (keep := keep) (bs := [b]) hr
  unfold parseHexDigit
  exact Wp.ite (fun _ => Wp.pure ⟨rfl, _, h1⟩) fun _ => Wp.ite (fun _ => Wp.pure ⟨rfl, _, h1⟩) fun _ => Wp.ite (fun _ => Wp.pure ⟨rfl, _, h1⟩) fun _ => Wp.of_err rfl rfl

theorem escape_err (h : At F x y d pk s) : Wp (readUnicodeEscape rb) s (fun _ s' => loc s' = loc s ∧ ∃ d', At F x y d' pk s') (fun e _ => e = .syntax .malformedEscapeSequence (loc s)) := by
  unfold readUnicodeEscape
  refine Wp.bind' (hex_err hrb h) ?_
  rintro _ s1 ⟨e1, d1, h1⟩
  rw [← e1]
  refine Wp.bind' (hex_err hrb h1) ?_
  rintro _ s2 ⟨e2, d2, h2⟩
  rw [← e2]
  refine Wp.bind' (hex_err hrb h2) ?_
  rintro _ s3 ⟨e3, d3, h3⟩
  rw [← e3]
  refine Wp.bind' (hex_err hrb h3) ?_
  rintro _ s4 ⟨e4, d4, h4⟩
  exact Wp.pure ⟨e4, d4, h4⟩

theorem escape_err' (h : At F x y d pk s) : Wp (readUnicodeEscape rb) s (fun n s' => ∃ (h : Hex4) (r : Bytes), h.Is n ∧ s.src.rest = h.bytes ++ r ∧ s' = eat keep h.bytes r s)
    (fun e _ => e = .syntax .malformedEscapeSequence (loc s) ∧ NoHex s.src.rest) := by
  by_cases hx : ∃ n t', HexAt s.src.rest n t'
  · obtain ⟨n, t', h4, hn, hr⟩ := hx
    exact Wp.of_ok (readUnicodeEscape_complete hrb hn hr) ⟨h4, t', hn, hr, rfl⟩
  · exact (wp_and (readUnicodeEscape_lo hrb h.term) (escape_err hrb h)).mono (fun _ _ h => h.1) fun _ _ h => ⟨h.2, fun n t' h' => hx ⟨n, t', h'⟩⟩

omit hrb in
theorem hex4_inj {h : Hex4} {n m : Nat} (h1 : h.Is n) (h2 : h.Is m) : n = m := by
  obtain ⟨a, b, c, d, ha, hb, hc, hd, rfl⟩ := h1
  obtain ⟨a', b', c', d', ha', hb', hc', hd', rfl⟩ := h2
  rw [ha] at ha'; rw [hb] at hb'; rw [hc] at hc'; rw [hd] at hd'
  cases ha'; cases hb'; cases hc'; cases hd'
  rfl
omit hrb in
theorem hexAt_inj {t t1 t2 : Bytes} {n m : Nat} (h1 : HexAt t n t1) (h2 : HexAt t m t2) : n = m ∧ t1 = t2 := by
  obtain ⟨⟨a, b, c, d⟩, hn, rfl⟩ := h1
  obtain ⟨⟨a', b', c', d'⟩, hm, h⟩ := h2
  cases h
  exact ⟨hex4_inj hn hm, rfl⟩

/-- errors of `read_unicode_escape_char` -/
theorem escapeChar_err (h : At F x y d pk s) :
    Wp (readUnicodeEscapeChar rb) s (fun _ _ => True)
      (fun e _ => (e = .syntax .malformedEscapeSequence (loc s) ∧ BrokenEscape s.src.rest) ∨ (e = .syntax .unpairedSurrogatePairEscapeSequence (loc s) ∧ Unpaired s.src.rest) ∨ ∃ p, e = .panic p) := by
  have hc : ∀ {c n : Nat} {s1 : St}, Wp (escapedChar c n) s1 (fun _ _ => True)
      (fun e _ => (e = .syntax .malformedEscapeSequence (loc s) ∧ BrokenEscape s.src.rest) ∨ (e = .syntax .unpairedSurrogatePairEscapeSequence (loc s) ∧ Unpaired s.src.rest) ∨ ∃ p, e = .panic p) := by
    intro c n s1
    unfold escapedChar
    cases charFromU32 c with
    | none => exact Wp.of_err rfl (.inr (.inr ⟨_, rfl⟩))
    | some _ => trivial
  unfold readUnicodeEscapeChar
  refine Wp.bind' ((escape_err' hrb h).mono (fun _ _ h => h) fun _ _ h => .inl ⟨h.1, .inl h.2⟩) ?_
  rintro c _ ⟨hx, r, hn, hr, rfl⟩
  have hh : HexAt s.src.rest c r := ⟨hx, hn, hr⟩
  have h1 := h.eat (keep := keep) hr
  have e1 : loc (eat keep hx.bytes r s) = loc s := rfl
  have r1 : (eat keep hx.bytes r s).src.rest = r := eat_rest ..
  generalize eat keep hx.bytes r s = s1 at h1 e1 r1
  refine Wp.ite (fun hc1 => Wp.of_err rfl (.inr (.inl ⟨by rw [e1], c, r, hh, .inl ?_⟩))) fun _ => Wp.ite (fun hc2 => ?_) fun _ => hc
  · simp only [Bool.and_eq_true, decide_eq_true_eq] at hc1
    exact ⟨hc1.1, by omega⟩
  have hhi : High c := by
    simp only [Bool.and_eq_true, decide_eq_true_eq] at hc2
    exact ⟨hc2.1, by omega⟩
  have un : (∀ m t2 t3, r = 0x5C :: 0x75 :: t2 → HexAt t2 m t3 → ¬ Low m) → Unpaired s.src.rest := fun h => ⟨c, r, hh, .inr ⟨hhi, h⟩⟩
  refine Wp.bind (isRb_wp hrb h1 (fun b t hr => ?_) fun hr _ => .inr (.inl ⟨by rw [e1], un ?_⟩))
  · rw [r1] at hr
    have h2 := h1.eat (keep := keep) (bs := [b]) (r := t) (by rw [r1, hr]; rfl)
    have e2 : loc (eat keep [b] t s1) = loc s := e1
    have r2 : (eat keep [b] t s1).src.rest = t := eat_rest ..
    generalize eat keep [b] t s1 = s2 at h2 e2 r2
    refine Wp.ite (fun hb => ?_) fun hb => Wp.of_err rfl (.inr (.inl ⟨by rw [e2], un ?_⟩))
    · have hb := eq_of_beq hb
      subst hb
      refine Wp.bind (isRb_wp hrb h2 (fun b' t' hr' => ?_) fun hr' _ => .inr (.inl ⟨by rw [e2], un ?_⟩))
      · rw [r2] at hr'
        have h3 := h2.eat (keep := keep) (bs := [b']) (r := t') (by rw [r2, hr']; rfl)
        have e3 : loc (eat keep [b'] t' s2) = loc s := e2
        have r3 : (eat keep [b'] t' s2).src.rest = t' := eat_rest ..
        generalize eat keep [b'] t' s2 = s3 at h3 e3 r3
        refine Wp.ite (fun hb => ?_) fun hb => Wp.of_err rfl (.inr (.inl ⟨by rw [e3], un ?_⟩))
        · have hb := eq_of_beq hb
          subst hb
          subst hr'
          subst hr
          unfold readLowSurrogate
          refine Wp.bind' ((escape_err' hrb h3).mono (fun _ _ h => h) fun _ _ h => .inl ⟨by rw [h.1, e3], .inr ⟨c, t', hh, hhi, by rw [← r3]; exact h.2⟩⟩) ?_
          rintro c2 _ ⟨hy, r', hn', hr', rfl⟩
          generalize hx : (((c - 0xD800) <<< 10 ||| (c2 - 0xDC00)) + 0x10000) = c3
          refine Wp.ite (fun hl => Wp.of_err rfl (.inr (.inl ⟨?_, un ?_⟩))) fun _ => hc
          · show _ = RErr.syntax _ (loc s)
            rw [← e3]
            rfl
          · intro m t2 t3 he hm hlow
            cases he
            rw [r3] at hr'
            obtain ⟨rfl, _⟩ := hexAt_inj hm ⟨hy, hn', hr'⟩
            simp only [Bool.not_eq_true', Bool.and_eq_false_iff, decide_eq_false_iff_not] at hl
            unfold Low at hlow
            omega
        · intro m t2 t3 he
          rw [hr, hr'] at he
          cases he
          exact absurd rfl hb
      · intro m t2 t3 he
        rw [r2] at hr'
        rw [hr, hr'] at he
        cases he
    · intro m t2 t3 he
      rw [hr] at he
      cases he
      exact absurd rfl hb
  · intro m t2 t3 he
    rw [r1] at hr
    rw [hr] at he
    cases he

/-- an escape sequence behind `\u` -/
theorem At.unicode (h : At F x y d pk s) (hp : y = 0x5C :: 0x75 :: s.src.rest) :
    Wp (readUnicodeEscapeChar rb) s (fun p s' => ∃ bs, Plain bs ∧ p.2 = bs.length ∧ At F x y (d ++ bs) pk s') (EL F) := by
  refine (wp_and (readUnicodeEscapeChar_lo hrb h.term) (escapeChar_err hrb h)).mono ?_ ?_
  · rintro p _ ⟨⟨bs, r, i, h1, h2, h3, rfl⟩, _⟩
    exact ⟨bs, h1.plain, h2, h.eat h3⟩
  · rintro e _ ⟨_, ⟨rfl, hb⟩ | ⟨rfl, hb⟩ | ⟨p, rfl⟩⟩
    · exact h.el (e := .syntax .malformedEscapeSequence (loc s)) rfl (.inr ⟨_, hp, hb⟩) rfl
    · exact h.el (e := .syntax .unpairedSurrogatePairEscapeSequence (loc s)) rfl ⟨_, hp, hb⟩ rfl
    · exact .panic

end

/-! ## Whitespace and comments -/

theorem posOf_flag {cr : Bool} (h1 : cr = true → x.getLast? = some 0x0D) (h2 : cr = false → NoSplit x d) : posOf (x ++ d) = (posRun (posOf x, cr) d).1 := by
  cases cr with
  | false => exact (posOf_over (h2 rfl)).symm
  | true =>
    have hx := h1 rfl
    have hf := posRun_flag (⟨0, 0, 0⟩, false) (bs := x) (by rintro rfl; cases hx)
    unfold posOf
    rw [posRun_append]
    rw [hx] at hf
    rcases hp : posRun (⟨0, 0, 0⟩, false) x with ⟨q, c⟩
    rw [hp] at hf
    dsimp only at *
    rw [hf]
    rfl

theorem At.skipToByte {b : UInt8} {cr : Bool} (h : At F x y [b] pk s) (h1 : cr = true → x.getLast? = some 0x0D) (h2 : cr = false → NoSplit x y) :
    Wp (skipToByte b cr) s (fun _ s' => ∃ d y', d ≠ [] ∧ (d.getLast? = some 0x0D ↔ b = 0x0D) ∧ At F (x ++ d) y' [] pk s') (EL F) := by
  have h2' : cr = false → NoSplit x [b] := fun hc hl he => h2 hc hl (by rw [h.rest]; exact he)
  unfold Reader.skipToByte
  refine Wp.ite (fun hb => ?_) fun hb => Wp.ite (fun hb2 => ?_) fun hb2 => Wp.ite (fun h3 => ?_) fun h3 => ?_
  · have hb := eq_of_beq hb
    subst hb
    refine Wp.modify ⟨[0x0A], _, by decide, by decide, h.move ?_ ?_ ?_ ?_ ?_ ?_ ?_ ?_ ?_⟩
    · rw [posOf_flag h1 h2', ← h.pos]
      cases cr <;> rfl
    all_goals (cases cr <;> rfl)
  · have hb2 := eq_of_beq hb2
    subst hb2
    refine Wp.modify ⟨[0x0D], _, by decide, by decide, h.move ?_ rfl rfl rfl rfl rfl rfl rfl rfl⟩
    rw [posOf_flag h1 h2', ← h.pos]
    cases cr <;> rfl
  · refine h.plain (n := 1) (plain_cons ⟨(is1byte_iff b).1 h3, by simpa using hb, by simpa using hb2⟩ plain_nil) rfl fun s' hs _ => ⟨[b], _, by simp, ?_, hs⟩
    simp
  · have h3 := mt (is1byte_iff b).2 h3
    refine Wp.bind' (h.multibyte isRb_readByte (by omega)) ?_
    rintro bytes s' ⟨c, hc, h0, h4⟩
    have n1 : c ≠ '\n' := by rintro rfl; exact absurd h0 (by decide)
    have n2 : c ≠ '\r' := by rintro rfl; exact absurd h0 (by decide)
    refine h4.char hc n1 n2 fun s2 hs => ⟨bytes, _, ?_, ?_, hs⟩
    · rintro rfl; exact encodeChar_ne_nil c hc
    have hm := (noBreak_char n1 n2).2
    rw [hc] at hm
    exact ⟨fun hl => absurd (List.mem_of_getLast? hl) hm, fun he => absurd he (by simpa using hb2)⟩

theorem noCr_append' {a : Bytes} (hd : d ≠ []) : (a ++ d).getLast? = d.getLast? := by
  rcases List.eq_nil_or_concat d with rfl | ⟨l, b, rfl⟩
  · exact absurd rfl hd
  · simp

theorem At.skipToLoop {stop : UInt8 → Bool} {k : Option SyntaxKind} (hs : stop 0x0A = true → stop 0x0D = true) (hk : ∀ kind, k = some kind → SyntaxPoints kind []) :
    ∀ {f : Nat} {cr : Bool} {x y : Bytes} {s : St}, At F x y [] pk s → (cr = true → x.getLast? = some 0x0D ∧ stop 0x0A = false) → (cr = false → NoSplit x y) →
      Wp (skipToLoop stop k f cr) s (fun _ s' => ∃ x' y', At F x' y' [] pk s' ∧ NoSplit x' y' ∧ ((y' = [] ∧ k = none) ∨ ∃ b t, y' = b :: t ∧ stop b = true)) (EL F) := by
  intro f
  induction f with
  | zero => intro cr x y s h h1 h2; exact Wp.of_err rfl .fuel
  | succ f ih =>
    intro cr x y s h h1 h2
    have hy : y = s.src.rest := h.rest
    rw [skipToLoop_succ]
    refine h.peekByte ?_
    cases hr : s.src.rest with
    | nil =>
      rw [hr] at hy
      subst hy
      cases k with
      | none => exact Wp.pure ⟨x, [], h, noSplit_nil_right _, .inl ⟨rfl, rfl⟩⟩
      | some kind => exact h.syn (hk _ rfl)
    | cons b t =>
      rw [hr] at hy
      subst hy
      refine Wp.ite (fun hb => Wp.pure ⟨x, b :: t, h, ?_, .inr ⟨b, t, rfl, hb⟩⟩) fun hb => Wp.ite (fun hc => ?_) fun hc => ?_
      · cases cr with
        | false => exact h2 rfl
        | true => exact noSplit_cons (by rintro rfl; rw [(h1 rfl).2] at hb; cases hb)
      · have := (skipTo_cond b).1 hc
        exact h.syn (k := .notEscapedControlCharacter) ⟨b, t, rfl, this.1⟩
      · refine Wp.bind_ok (skipPeekedByte_cons hr) ?_
        have h3 : At F x (b :: t) [b] pk (setRest s t) := ⟨h.inp, rfl, h.pos, h.peeked, h.path, h.behind, h.st, h.lo, h.term, h.obj⟩
        refine Wp.bind' (h3.skipToByte (fun hc => (h1 hc).1) h2) ?_
        rintro _ s' ⟨d, y', hd', hd, h4⟩
        have hcr : (b == 0x0D) = true → (x ++ d).getLast? = some 0x0D ∧ stop 0x0A = false := by
          intro hb'
          have hb' := eq_of_beq hb'
          have hl := hd.2 hb'
          refine ⟨?_, ?_⟩
          · rw [noCr_append' hd']; exact hl
          · cases h5 : stop 0x0A with
            | false => rfl
            | true => exact absurd (hb' ▸ hs h5) hb
        refine ih h4 hcr fun hb' => ?_
        have hb' : ¬ b = 0x0D := by simpa using hb'
        intro hl
        rw [noCr_append' hd'] at hl
        exact absurd (hd.1 hl) hb'

theorem noSplit_plain {d r : Bytes} (hd : Plain d) (h : NoSplit x (d ++ r)) : NoSplit (x ++ d) r := by
  cases d with
  | nil => rwa [List.append_nil]
  | cons b t =>
    intro hl
    rw [noCr_append' (by simp)] at hl
    exact absurd (List.mem_of_getLast? hl) hd.noBreak.2

theorem At.skipTo {stop : UInt8 → Bool} {k : Option SyntaxKind} (h : At F x y [] pk s) (hn : NoSplit x y) (hs : stop 0x0A = true → stop 0x0D = true) (hk : ∀ kind, k = some kind → SyntaxPoints kind []) :
    Wp (Reader.skipTo stop k) s (fun _ s' => ∃ x' y', At F x' y' [] pk s' ∧ NoSplit x' y' ∧ ((y' = [] ∧ k = none) ∨ ∃ b t, y' = b :: t ∧ stop b = true)) (EL F) :=
  Wp.get (h.skipToLoop hs hk (fun h => by cases h) fun _ => hn)

theorem At.skip {b : UInt8} {t : Bytes} (h : At F x (b :: t) [] pk s) {f : Unit → R AbsSrc β} {Q : β → St → Prop} (hQ : At F x (b :: t) [b] pk (setRest s t) → Wp (f ()) (setRest s t) Q (EL F)) :
    Wp (skipPeekedByte >>= f) s Q (EL F) :=
  have hr : s.src.rest = b :: t := h.rest.symm
  Wp.bind_ok (skipPeekedByte_cons hr) (hQ ⟨h.inp, rfl, h.pos, h.peeked, h.path, h.behind, h.st, h.lo, h.term, h.obj⟩)

theorem plain_byte {b : UInt8} (h : b.toNat < 0x80) (h1 : b ≠ 0x0A) (h2 : b ≠ 0x0D) : Plain [b] := plain_cons ⟨h, h1, h2⟩ plain_nil

theorem At.blockEnd : ∀ {f : Nat} {x y : Bytes} {s : St}, At F x y [] pk s → NoSplit x y →
    Wp (skipToBlockCommentEnd f) s (fun _ s' => ∃ x' y', At F x' y' [] pk s' ∧ NoSplit x' y') (EL F) := by
  intro f
  induction f with
  | zero => intro x y s _ _; exact Wp.of_err rfl .fuel
  | succ f ih =>
    intro x y s h hn
    unfold skipToBlockCommentEnd
    refine Wp.bind' (h.skipTo hn (by decide) (by rintro _ ⟨⟩; rfl)) ?_
    rintro _ s1 ⟨x1, y1, h1, hn1, ⟨_, hk⟩ | ⟨b, t, rfl, hb⟩⟩
    · cases hk
    have hb := eq_of_beq hb
    subst hb
    have hr : s1.src.rest = 0x2A :: t := h1.rest.symm
    -- the position is advanced before the byte is skipped
    refine Wp.bind (Wp.modify ?_)
    refine Wp.bind_ok (skipPeekedByte_cons (t := t) hr) ?_
    have h2 : At F (x1 ++ [0x2A]) t [] pk (setRest { s1 with column := s1.column + 1, bytePos := s1.bytePos + 1 } t) := by
      refine ⟨by rw [h1.inp, List.append_assoc]; rfl, rfl, ?_, h1.peeked, h1.path, h1.behind, h1.st, Nat.le_trans h1.lo (by rw [List.length_append]; omega), h1.term, h1.obj⟩
      rw [posOf_plain (plain_byte (by decide) (by decide) (by decide)), ← h1.pos]
      rfl
    have hn2 : NoSplit (x1 ++ [0x2A]) t := noSplit_plain (plain_byte (by decide) (by decide) (by decide)) hn1
    generalize setRest { s1 with column := s1.column + 1, bytePos := s1.bytePos + 1 } t = s2 at h2
    refine h2.peekByte ?_
    have ht : t = s2.src.rest := h2.rest
    cases hr2 : s2.src.rest with
    | nil => exact h2.syn (k := .blockCommentNotClosed) (ht.trans hr2)
    | cons b t2 =>
      have ht := ht.trans hr2
      subst ht
      refine Wp.ite (fun hb => ?_) fun _ => ih h2 hn2
      have hb := eq_of_beq hb
      subst hb
      refine h2.skip fun h3 => ?_
      have hp : Plain [0x2F] := plain_byte (by decide) (by decide) (by decide)
      exact h3.plain hp rfl fun s' h4 _ => ⟨_, _, h4, noSplit_plain hp hn2⟩

theorem At.comment {t : Bytes} {k : Option SyntaxKind} (h : At F x (0x2F :: t) [] pk s) (hn : NoSplit x (0x2F :: t)) (hk : ∀ kind, k = some kind → SyntaxPoints kind []) :
    Wp (skipComment k) s (fun _ s' => ∃ x' y', At F x' y' [] pk s' ∧ NoSplit x' y') (EL F) := by
  have hp : ∀ {b : UInt8}, b = 0x2F ∨ b = 0x2A → Plain [b] := by
    rintro b (rfl | rfl) <;> exact plain_byte (by decide) (by decide) (by decide)
  unfold skipComment
  refine h.skip fun h1 => Wp.bind (h1.plain (hp (.inl rfl)) rfl fun s2 h2 _ => ?_)
  have hn2 : NoSplit (x ++ [0x2F]) t := noSplit_plain (hp (.inl rfl)) hn
  have h2 : At F (x ++ [0x2F]) t [] pk s2 := h2
  refine Wp.bind (isRb_wp isRb_readByte h2 (fun b t' hr => ?_) fun hr s' => h2.el rfl ?_ rfl)
  · have h3 := h2.eat (keep := false) (bs := [b]) hr
    have ht : t = b :: t' := h2.rest.trans hr
    subst ht
    refine Wp.ite (fun hb => ?_) fun hb => Wp.ite (fun hb2 => ?_) fun hb2 => ?_
    · have hb := eq_of_beq hb
      subst hb
      exact Wp.bind (h3.plain (hp (.inr rfl)) rfl fun s4 h4 _ => Wp.get (h4.blockEnd (noSplit_plain (hp (.inr rfl)) hn2)))
    · have hb2 := eq_of_beq hb2
      subst hb2
      refine Wp.bind (h3.plain (hp (.inl rfl)) rfl fun s4 h4 _ => ?_)
      unfold skipToLineCommentEnd
      refine (h4.skipTo (noSplit_plain (hp (.inl rfl)) hn2) (by decide) hk).post ?_
      rintro _ s5 ⟨x', y', h5, h6, _⟩
      exact ⟨x', y', h5, h6⟩
    · refine h3.syn (k := .incompleteComment) ?_
      rintro ⟨b', t'', he, hb'⟩
      cases he
      rcases hb' with rfl | rfl
      · exact hb rfl
      · exact hb2 rfl
  · show ¬ Head _ _
    rintro ⟨b, t', rfl, _⟩
    have := h2.rest
    rw [hr] at this
    cases this

/-- the byte behind the whitespace -/
def NextByte (y : Bytes) (o : Option UInt8) : Prop := (o = none ∧ y = []) ∨ ∃ b t, o = some b ∧ y = b :: t ∧ isWsByte b = false ∧ b ≠ 0x2F

theorem notWs {b : UInt8} (h : isWsByte b = false) : b ∉ whitespace := by
  simpa [isWsByte, ErrorLocation.whitespace, and_assoc] using h

theorem At.whitespaceLoop {k : Option SyntaxKind} (hk : ∀ kind, k = some kind → SyntaxPoints kind []) : ∀ {f : Nat} {x y : Bytes} {s : St}, At F x y [] pk s → NoSplit x y →
    Wp (skipWhitespaceLoop k f) s (fun o s' => ∃ x' y', At F x' y' [] pk s' ∧ NoSplit x' y' ∧ NextByte y' o ∧ (o = none → k = none)) (EL F) := by
  intro f
  induction f with
  | zero => intro x y s _ _; exact Wp.of_err rfl .fuel
  | succ f ih =>
    intro x y s h hn
    unfold skipWhitespaceLoop
    refine Wp.bind' (h.skipTo hn (by decide) (by rintro _ ⟨⟩)) ?_
    rintro _ s1 ⟨x1, y1, h1, hn1, hy⟩
    have hr : y1 = s1.src.rest := h1.rest
    refine h1.peekByte ?_
    rcases hy with ⟨rfl, _⟩ | ⟨b, t, rfl, hb⟩
    · rw [← hr]
      cases k with
      | none => exact Wp.pure ⟨x1, [], h1, hn1, .inl ⟨rfl, rfl⟩, fun _ => rfl⟩
      | some kind => exact h1.syn (hk _ rfl)
    · rw [← hr]
      refine Wp.ite (fun hb => ?_) fun hb2 => Wp.pure ⟨x1, b :: t, h1, hn1, .inr ⟨b, t, rfl, rfl, by simpa using hb, by simpa using hb2⟩, fun h => by cases h⟩
      have hb := eq_of_beq hb
      subst hb
      refine Wp.get (Wp.ite (fun _ => h1.syn (k := .commentsNotEnabled) ⟨_, _, rfl, rfl⟩) fun _ => ?_)
      refine Wp.bind' (h1.comment hn1 hk) ?_
      rintro _ s2 ⟨x2, y2, h2, hn2⟩
      exact ih h2 hn2

theorem At.whitespace {k : Option SyntaxKind} (h : At F x y [] pk s) (hn : NoSplit x y) (hk : ∀ kind, k = some kind → SyntaxPoints kind []) :
    Wp (skipWhitespace k) s (fun o s' => ∃ x' y', At F x' y' [] pk s' ∧ NoSplit x' y' ∧ NextByte y' o ∧ (o = none → k = none)) (EL F) :=
  Wp.get (At.whitespaceLoop hk h hn)

theorem At.whitespaceNoEof {k : SyntaxKind} (h : At F x y [] pk s) (hn : NoSplit x y) (hk : SyntaxPoints k []) :
    Wp (skipWhitespaceNoEof k) s (fun b s' => ∃ x' t, At F x' (b :: t) [] pk s' ∧ NoSplit x' (b :: t) ∧ isWsByte b = false ∧ b ≠ 0x2F) (EL F) := by
  unfold skipWhitespaceNoEof
  refine Wp.bind' (h.whitespace hn (by rintro _ ⟨⟩; exact hk)) ?_
  rintro o s' ⟨x', y', h1, hn1, ⟨rfl, _⟩ | ⟨b, t, rfl, rfl, hb, hb2⟩, ho⟩
  · cases ho rfl
  · exact Wp.pure ⟨x', t, h1, hn1, hb, hb2⟩

end

end Verif.Where

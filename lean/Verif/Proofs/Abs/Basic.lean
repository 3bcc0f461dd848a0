import Verif.Model.Reader
import Verif.Proofs.Utf8
/-!
# The reader on a list of bytes: basics

All proofs about the behaviour of the reader are done for the source `AbsSrc` with a regular end of the input (`term = none`);
`Verif.Proofs.Run` and `Verif.Proofs.Term` transfer the results to the buffered reader and to failing sources.
-/

namespace Verif

/-- Weakest precondition: the result and state satisfy `Q`, or the error and state satisfy `E` -/
def Wp {ε S α : Type} (m : M ε S α) (s : S) (Q : α → S → Prop) (E : ε → S → Prop) : Prop :=
  match m.run s with
  | .ok a s' => Q a s'
  | .err e s' => E e s'

namespace Wp
variable {ε S α β : Type} {E : ε → S → Prop} {s : S}

theorem mono {m : M ε S α} {Q Q' : α → S → Prop} {E' : ε → S → Prop} (h : Wp m s Q E) (hQ : ∀ a s', Q a s' → Q' a s')
    (hE : ∀ e s', E e s' → E' e s') : Wp m s Q' E' := by
  unfold Wp at *
  split at h
  · exact hQ _ _ h
  · exact hE _ _ h

theorem post {m : M ε S α} {Q Q' : α → S → Prop} (h : Wp m s Q E) (hQ : ∀ a s', Q a s' → Q' a s') : Wp m s Q' E :=
  h.mono hQ fun _ _ h => h

theorem bind {m : M ε S α} {f : α → M ε S β} {Q : β → S → Prop}
    (h : Wp m s (fun a s' => Wp (f a) s' Q E) E) : Wp (m >>= f) s Q E := by
  unfold Wp at *
  rw [M.run_bind]
  cases hm : m.run s with
  | ok a s' => rw [hm] at h; exact h
  | err e s' => rw [hm] at h; exact h

theorem bind' {m : M ε S α} {f : α → M ε S β} {P : α → S → Prop} {Q : β → S → Prop}
    (h : Wp m s P E) (hf : ∀ a s', P a s' → Wp (f a) s' Q E) : Wp (m >>= f) s Q E :=
  bind (h.post hf)

theorem pure {a : α} {Q : α → S → Prop} (h : Q a s) : Wp (pure a) s Q E := h
theorem fail {e : ε} {Q : α → S → Prop} (h : E e s) : Wp (M.fail e) s Q E := h
theorem get {f : S → M ε S β} {Q : β → S → Prop} (h : Wp (f s) s Q E) : Wp (M.get >>= f) s Q E := h
theorem modify {f : S → S} {Q : Unit → S → Prop} (h : Q () (f s)) : Wp (M.modify f) s Q E := h
theorem set {t : S} {Q : Unit → S → Prop} (h : Q () t) : Wp (M.set t) s Q E := h

theorem ite {c : Prop} [Decidable c] {a b : M ε S α} {Q : α → S → Prop} (h1 : c → Wp a s Q E) (h2 : ¬ c → Wp b s Q E) :
    Wp (if c then a else b) s Q E := by
  split
  · exact h1 ‹_›
  · exact h2 ‹_›

theorem ite_bind {c : Prop} [Decidable c] {a b : M ε S α} {f : α → M ε S β} {Q : β → S → Prop} (h1 : c → Wp (a >>= f) s Q E) (h2 : ¬ c → Wp (b >>= f) s Q E) :
    Wp ((if c then a else b) >>= f) s Q E := by
  split
  · exact h1 ‹_›
  · exact h2 ‹_›

theorem of_ok {m : M ε S α} {Q : α → S → Prop} {a : α} {s' : S} (h : m.run s = .ok a s') (hq : Q a s') : Wp m s Q E := by
  unfold Wp; rw [h]; exact hq

theorem of_err {m : M ε S α} {Q : α → S → Prop} {e : ε} {s' : S} (h : m.run s = .err e s') (hq : E e s') : Wp m s Q E := by
  unfold Wp; rw [h]; exact hq

theorem ok {m : M ε S α} {Q : α → S → Prop} {a : α} {s' : S} (h : Wp m s Q E) (hr : m.run s = .ok a s') : Q a s' := by
  unfold Wp at h; rw [hr] at h; exact h

theorem err {m : M ε S α} {Q : α → S → Prop} {e : ε} {s' : S} (h : Wp m s Q E) (hr : m.run s = .err e s') : E e s' := by
  unfold Wp at h; rw [hr] at h; exact h

theorem congr {β' : Type} {m : M ε S β'} {m' : M ε S β'} {s' : S} {Q : β' → S → Prop} (h : m.run s = m'.run s')
    (h' : Wp m' s' Q E) : Wp m s Q E := by
  unfold Wp at *
  rw [h]; exact h'

/-- bind for a computation whose result is known -/
theorem bind_ok {m : M ε S α} {f : α → M ε S β} {Q : β → S → Prop} {a : α} {s' : S} (h : m.run s = .ok a s')
    (hf : Wp (f a) s' Q E) : Wp (m >>= f) s Q E := by
  unfold Wp at *
  rw [M.bind_ok h]; exact hf

end Wp

namespace Abs
open Reader

theorem run_get {ε S β : Type} (f : S → M ε S β) (s : S) : (M.get >>= f).run s = (f s).run s := rfl

/-- state of the reader on a list of bytes -/
abbrev St := RState AbsSrc

/-- errors caused by invalid data -/
def DataErr : RErr → Prop
  | .syntax _ _ => True
  | .io .invalidUtf8 _ => True
  | _ => False

/-- `Wp` for low level functions, which only fail because of invalid data -/
abbrev Lo {α : Type} (m : R AbsSrc α) (s : St) (Q : α → St → Prop) : Prop := Wp m s Q (fun e _ => DataErr e)

theorem Lo.syntaxErr {α : Type} {k : SyntaxKind} {s : St} {Q : α → St → Prop} : Lo (Reader.syntaxErr k) s Q :=
  Wp.of_err rfl trivial

theorem Lo.utf8Err {α : Type} {s : St} {Q : α → St → Prop} : Lo (Reader.ioErr .invalidUtf8) s Q :=
  Wp.of_err rfl trivial

/-! ## Positions -/

structure Pos where
  line : Nat
  col : Nat
  byte : Nat
deriving DecidableEq

/-- position behind a byte; the flag says whether the previous byte was a carriage return -/
def posByte (p : Pos × Bool) (b : UInt8) : Pos × Bool :=
  if b = 0x0A then (if p.2 then ⟨p.1.line, p.1.col, p.1.byte + 1⟩ else ⟨p.1.line + 1, 0, p.1.byte + 1⟩, false)
  else if b = 0x0D then (⟨p.1.line + 1, 0, p.1.byte + 1⟩, true)
  else if 0x80 ≤ b.toNat ∧ b.toNat < 0xC0 then (⟨p.1.line, p.1.col, p.1.byte + 1⟩, false)
  else (⟨p.1.line, p.1.col + 1, p.1.byte + 1⟩, false)

def posRun (p : Pos × Bool) (bs : Bytes) : Pos × Bool := bs.foldl posByte p

@[simp] theorem posRun_nil (p : Pos × Bool) : posRun p [] = p := rfl
@[simp] theorem posRun_cons (p : Pos × Bool) (b : UInt8) (bs : Bytes) : posRun p (b :: bs) = posRun (posByte p b) bs := rfl
theorem posRun_append (p : Pos × Bool) (a b : Bytes) : posRun p (a ++ b) = posRun (posRun p a) b := List.foldl_append ..

/-- the flag after some bytes -/
theorem posByte_flag (p : Pos × Bool) (b : UInt8) : (posByte p b).2 = (b == 0x0D) := by
  unfold posByte
  split
  · rename_i h; subst h; rfl
  · split
    · rename_i h; subst h; rfl
    · rename_i h
      rw [beq_eq_false_iff_ne.2 h]
      split <;> rfl

theorem posByte_flag_irrelevant (p : Pos) (c d : Bool) {b : UInt8} (h : b ≠ 0x0A) : posByte (p, c) b = posByte (p, d) b := by
  unfold posByte
  rw [if_neg h, if_neg h]

theorem posRun_flag_irrelevant (p : Pos) (c d : Bool) {bs : Bytes} (h : bs.head? ≠ some 0x0A) (hn : bs ≠ []) :
    posRun (p, c) bs = posRun (p, d) bs := by
  cases bs with
  | nil => exact absurd rfl hn
  | cons b bs => rw [posRun_cons, posRun_cons, posByte_flag_irrelevant p c d (by simpa using h)]

theorem posRun_fst_flag_irrelevant (p : Pos) (c d : Bool) {bs : Bytes} (h : bs.head? ≠ some 0x0A) :
    (posRun (p, c) bs).1 = (posRun (p, d) bs).1 := by
  by_cases hn : bs = []
  · subst hn; rfl
  · rw [posRun_flag_irrelevant p c d h hn]

theorem posRun_flag (p : Pos × Bool) {bs : Bytes} (hn : bs ≠ []) : (posRun p bs).2 = (bs.getLast? == some 0x0D) := by
  rcases List.eq_nil_or_concat bs with rfl | ⟨l, b, rfl⟩
  · exact absurd rfl hn
  · rw [List.concat_eq_append, posRun_append, posRun_cons, posRun_nil, posByte_flag]
    simp

/-- ASCII bytes other than line breaks -/
def Plain (bs : Bytes) : Prop := ∀ b ∈ bs, b.toNat < 0x80 ∧ b ≠ 0x0A ∧ b ≠ 0x0D

theorem posByte_plain (p : Pos × Bool) {b : UInt8} (h : b.toNat < 0x80 ∧ b ≠ 0x0A ∧ b ≠ 0x0D) :
    posByte p b = (⟨p.1.line, p.1.col + 1, p.1.byte + 1⟩, false) := by
  unfold posByte
  rw [if_neg h.2.1, if_neg h.2.2, if_neg (by omega)]

theorem posRun_plain (p : Pos × Bool) {bs : Bytes} (h : Plain bs) :
    posRun p bs = (⟨p.1.line, p.1.col + bs.length, p.1.byte + bs.length⟩, if bs = [] then p.2 else false) := by
  induction bs generalizing p with
  | nil => rfl
  | cons b bs ih =>
    rw [posRun_cons, posByte_plain p (h b (by simp)), ih _ (fun x hx => h x (by simp [hx]))]
    simp only [List.length_cons, reduceCtorEq, if_false, ite_self]
    congr 2 <;> omega

theorem posByte_cont (p : Pos × Bool) {b : UInt8} (h : 0x80 ≤ b.toNat) (h2 : b.toNat < 0xC0) :
    posByte p b = (⟨p.1.line, p.1.col, p.1.byte + 1⟩, false) := by
  unfold posByte
  rw [if_neg (by rintro rfl; revert h; decide), if_neg (by rintro rfl; revert h; decide), if_pos ⟨h, h2⟩]

theorem posByte_lead (p : Pos × Bool) {b : UInt8} (h : 0xC0 ≤ b.toNat) :
    posByte p b = (⟨p.1.line, p.1.col + 1, p.1.byte + 1⟩, false) := by
  unfold posByte
  rw [if_neg (by rintro rfl; revert h; decide), if_neg (by rintro rfl; revert h; decide), if_neg (by omega)]

/-- a character which is not a line break -/
theorem posRun_char (p : Pos × Bool) {c : Char} (h1 : c ≠ '\n') (h2 : c ≠ '\r') :
    posRun p (String.utf8EncodeChar c) =
      (⟨p.1.line, p.1.col + 1, p.1.byte + (String.utf8EncodeChar c).length⟩, false) := by
  have hs := Utf8.encShape c
  generalize String.utf8EncodeChar c = bs at hs
  cases hs with
  | one b0 h3 h4 =>
    rw [posRun_cons, posRun_nil, posByte_plain p ⟨h3, ?_, ?_⟩]
    · rfl
    · rintro rfl; exact h1 (Utf8.char_ext h4)
    · rintro rfl; exact h2 (Utf8.char_ext h4)
  | two b0 b1 => simp only [posRun_cons, posRun_nil, posByte_lead, posByte_cont, *]; rfl
  | three b0 b1 b2 =>
    rw [posRun_cons, posByte_lead _ (by omega)]
    simp only [posRun_cons, posRun_nil, posByte_cont, *]; rfl
  | four b0 b1 b2 b3 =>
    rw [posRun_cons, posByte_lead _ (by omega)]
    simp only [posRun_cons, posRun_nil, posByte_cont, *]; rfl

/-- position of the reader -/
def pos (s : St) : Pos := ⟨s.line, s.column, s.bytePos⟩

/-- set the position -/
def setPos (s : St) (p : Pos) : St := { s with line := p.line, column := p.col, bytePos := p.byte }

/-- set the remaining bytes -/
def setRest (s : St) (r : Bytes) : St := { s with src := { s.src with rest := r } }

/-- The position is moved over the bytes `bs`, the remaining input is `r` -/
def mv (s : St) (bs r : Bytes) : St := setRest (setPos s (posRun (pos s, false) bs).1) r

/-- the same, when the previous byte was a carriage return -/
def mvc (s : St) (cr : Bool) (bs r : Bytes) : St := setRest (setPos s (posRun (pos s, cr) bs).1) r

theorem setRest_self (s : St) : setRest s s.src.rest = s := rfl
theorem mv_nil (s : St) (r : Bytes) : mv s [] r = setRest s r := rfl

@[simp] theorem mv_rest (s : St) (bs r : Bytes) : (mv s bs r).src.rest = r := rfl
@[simp] theorem mv_term (s : St) (bs r : Bytes) : (mv s bs r).src.term = s.src.term := rfl
@[simp] theorem mv_acc (s : St) (bs r : Bytes) : (mv s bs r).src.acc = s.src.acc := rfl
@[simp] theorem mv_peeked (s : St) (bs r : Bytes) : (mv s bs r).peeked = s.peeked := rfl
@[simp] theorem mv_isEmpty (s : St) (bs r : Bytes) : (mv s bs r).isEmpty = s.isEmpty := rfl
@[simp] theorem mv_emn (s : St) (bs r : Bytes) : (mv s bs r).expectsMemberName = s.expectsMemberName := rfl
@[simp] theorem mv_stack (s : St) (bs r : Bytes) : (mv s bs r).stack = s.stack := rfl
@[simp] theorem mv_sra (s : St) (bs r : Bytes) : (mv s bs r).stringReaderActive = s.stringReaderActive := rfl
@[simp] theorem mv_path (s : St) (bs r : Bytes) : (mv s bs r).path = s.path := rfl
@[simp] theorem mv_settings (s : St) (bs r : Bytes) : (mv s bs r).settings = s.settings := rfl
@[simp] theorem setRest_rest (s : St) (r : Bytes) : (setRest s r).src.rest = r := rfl
@[simp] theorem setRest_term (s : St) (r : Bytes) : (setRest s r).src.term = s.src.term := rfl
@[simp] theorem setRest_acc (s : St) (r : Bytes) : (setRest s r).src.acc = s.src.acc := rfl

theorem pos_mv (s : St) (bs r : Bytes) : pos (mv s bs r) = (posRun (pos s, false) bs).1 := rfl

/-- no line break is split -/
def NoSplit (a b : Bytes) : Prop := a.getLast? = some 0x0D → b.head? ≠ some 0x0A

theorem posRun_fst_append (p : Pos) {a b : Bytes} (h : NoSplit a b) :
    (posRun (p, false) (a ++ b)).1 = (posRun ((posRun (p, false) a).1, false) b).1 := by
  rw [posRun_append]
  by_cases ha : a = []
  · subst ha; rfl
  · have hf := posRun_flag (p, false) ha
    rcases hp : posRun (p, false) a with ⟨q, c⟩
    rw [hp] at hf
    dsimp only at *
    cases c with
    | false => rfl
    | true =>
      exact posRun_fst_flag_irrelevant q true false (h (by simpa using hf.symm))

theorem mv_mv (s : St) {a b : Bytes} (r1 r2 : Bytes) (h : NoSplit a b) : mv (mv s a r1) b r2 = mv s (a ++ b) r2 := by
  unfold mv
  rw [posRun_fst_append (pos s) h]
  rfl

theorem noSplit_nil_left (b : Bytes) : NoSplit [] b := by rintro ⟨⟩
theorem noSplit_nil_right (a : Bytes) : NoSplit a [] := by rintro _ ⟨⟩
theorem noSplit_of_head {a b : Bytes} (h : b.head? ≠ some 0x0A) : NoSplit a b := fun _ => h
theorem noSplit_cons {a t : Bytes} {b : UInt8} (h : b ≠ 0x0A) : NoSplit a (b :: t) := fun _ => by simpa using h

/-- moving over plain bytes -/
theorem advance_run (s : St) (x y : Nat) : (advance x y).run s = .ok () (setPos s ⟨s.line, s.column + x, s.bytePos + y⟩) := rfl

theorem mv_plain (s : St) {bs : Bytes} (r : Bytes) (h : Plain bs) :
    mv s bs r = setRest (setPos s ⟨s.line, s.column + bs.length, s.bytePos + bs.length⟩) r := by
  unfold mv
  rw [posRun_plain _ h]
  rfl

theorem advance_plain (s : St) {bs : Bytes} {n : Nat} (h : Plain bs) (hn : bs.length = n) :
    (advance n n).run s = .ok () (mv s bs s.src.rest) := by
  subst hn
  rw [mv_plain s _ h]
  rfl

theorem advance_char (s : St) {c : Char} (h1 : c ≠ '\n') (h2 : c ≠ '\r') :
    (advance 1 (String.utf8EncodeChar c).length).run s = .ok () (mv s (String.utf8EncodeChar c) s.src.rest) := by
  unfold mv
  rw [posRun_char _ h1 h2]
  rfl

theorem plain_cons {b : UInt8} {bs : Bytes} (h : b.toNat < 0x80 ∧ b ≠ 0x0A ∧ b ≠ 0x0D) (hb : Plain bs) : Plain (b :: bs) := by
  intro x hx
  rcases List.mem_cons.1 hx with rfl | hx
  · exact h
  · exact hb x hx

theorem plain_nil : Plain [] := by rintro _ ⟨⟩

theorem plain_append {a b : Bytes} (ha : Plain a) (hb : Plain b) : Plain (a ++ b) := by
  intro x hx
  rcases List.mem_append.1 hx with hx | hx
  · exact ha x hx
  · exact hb x hx

/-! ## Byte access -/

theorem peekByte_cons {s : St} {b : UInt8} {t : Bytes} (h : s.src.rest = b :: t) : peekByte.run s = .ok (some b) s := by
  obtain ⟨⟨rest, term, acc⟩, _⟩ := s
  dsimp only at h; subst h
  rfl

theorem peekByte_nil {s : St} (h : s.src.rest = []) (ht : s.src.term = none) : peekByte.run s = .ok none s := by
  obtain ⟨⟨rest, term, acc⟩, _⟩ := s
  dsimp only at h ht; subst h; subst ht
  rfl

theorem peekByte_run {s : St} (ht : s.src.term = none) : peekByte.run s = .ok s.src.rest.head? s := by
  cases h : s.src.rest with
  | nil => rw [peekByte_nil h ht]; rfl
  | cons b t => rw [peekByte_cons h]; rfl

theorem skipPeekedByte_cons {s : St} {b : UInt8} {t : Bytes} (h : s.src.rest = b :: t) :
    skipPeekedByte.run s = .ok () (setRest s t) := by
  obtain ⟨⟨rest, term, acc⟩, _⟩ := s
  dsimp only at h; subst h
  rfl

theorem readByte_cons {s : St} {b : UInt8} {t : Bytes} (k : SyntaxKind) (h : s.src.rest = b :: t) :
    (readByte k).run s = .ok b (setRest s t) := by
  unfold readByte
  rw [M.bind_ok (peekByte_cons h)]
  dsimp only
  rw [M.bind_ok (skipPeekedByte_cons h)]
  rfl

theorem readByte_nil {s : St} (k : SyntaxKind) (h : s.src.rest = []) (ht : s.src.term = none) :
    (readByte k).run s = .err (.syntax k (loc s)) s := by
  unfold readByte
  rw [M.bind_ok (peekByte_nil h ht)]
  rfl

/-- consume bytes, appending them to the collected value if `keep` -/
def eat (keep : Bool) (bs r : Bytes) (s : St) : St :=
  { s with src := { s.src with rest := r, acc := if keep then s.src.acc ++ bs else s.src.acc } }

@[simp] theorem eat_rest (k : Bool) (bs r : Bytes) (s : St) : (eat k bs r s).src.rest = r := rfl
@[simp] theorem eat_term (k : Bool) (bs r : Bytes) (s : St) : (eat k bs r s).src.term = s.src.term := rfl

theorem eat_eat (k : Bool) (a b r1 r2 : Bytes) (s : St) : eat k b r2 (eat k a r1 s) = eat k (a ++ b) r2 s := by
  unfold eat
  cases k <;> simp

theorem eat_nil (k : Bool) (s : St) : eat k [] s.src.rest s = s := by
  unfold eat
  cases k <;> simp

theorem eat_false (bs r : Bytes) (s : St) : eat false bs r s = setRest s r := rfl

/-- a function which reads a byte -/
structure IsRb (keep : Bool) (rb : SyntaxKind → R AbsSrc UInt8) : Prop where
  cons : ∀ {s : St} {b : UInt8} {t : Bytes} (k : SyntaxKind), s.src.rest = b :: t → (rb k).run s = .ok b (eat keep [b] t s)
  nil : ∀ {s : St} (k : SyntaxKind), s.src.rest = [] → s.src.term = none → ∃ s', (rb k).run s = .err (.syntax k (loc s)) s'

theorem isRb_readByte : IsRb false readByte where
  cons k h := readByte_cons k h
  nil k h ht := ⟨_, readByte_nil k h ht⟩

theorem vPeek_cons {s : St} {b : UInt8} {t : Bytes} (h : s.src.rest = b :: t) : vPeek.run s = .ok (some b) s := peekByte_cons h
theorem vPeek_nil {s : St} (h : s.src.rest = []) (ht : s.src.term = none) : vPeek.run s = .ok none s := peekByte_nil h ht

theorem vConsume_cons {s : St} {b : UInt8} {t : Bytes} (h : s.src.rest = b :: t) :
    (liftS ByteSource.vConsume : R AbsSrc Unit).run s = .ok () (eat true [b] t s) := by
  obtain ⟨⟨rest, term, acc⟩, _⟩ := s
  dsimp only at h; subst h
  rfl

theorem vReadByte_cons {s : St} {b : UInt8} {t : Bytes} (k : SyntaxKind) (h : s.src.rest = b :: t) :
    (vReadByte k).run s = .ok b (eat true [b] t s) := by
  unfold vReadByte
  rw [M.bind_ok (vPeek_cons h)]
  dsimp only
  rw [M.bind_ok (vConsume_cons h)]
  rfl

theorem isRb_vReadByte : IsRb true vReadByte where
  cons k h := vReadByte_cons k h
  nil {s} k h ht := ⟨s, by
    unfold vReadByte
    rw [M.bind_ok (vPeek_nil h ht)]
    rfl⟩

theorem vSkipPrevious_run (s : St) : (liftS ByteSource.vSkipPrevious : R AbsSrc Unit).run s =
    .ok () { s with src := { s.src with acc := s.src.acc.dropLast } } := rfl

theorem isRb_vReadByteSkip : IsRb false vReadByteSkip where
  cons {s b t} k h := by
    unfold vReadByteSkip
    rw [M.bind_ok (vReadByte_cons k h), M.bind_ok (vSkipPrevious_run _)]
    show Res.ok b _ = _
    congr 1
    unfold eat
    simp
  nil {s} k h ht := by
    obtain ⟨s', h'⟩ := isRb_vReadByte.nil k h ht
    exact ⟨s', by unfold vReadByteSkip; rw [M.bind_err h']⟩

/-- `Lo` for reading a byte -/
theorem IsRb.lo {keep : Bool} {rb : SyntaxKind → R AbsSrc UInt8} (h : IsRb keep rb) {s : St} (ht : s.src.term = none) {k : SyntaxKind}
    {Q : UInt8 → St → Prop} (hQ : ∀ b t, s.src.rest = b :: t → Q b (eat keep [b] t s)) : Lo (rb k) s Q := by
  cases hr : s.src.rest with
  | nil =>
    obtain ⟨s', h'⟩ := h.nil k hr ht
    exact Wp.of_err h' trivial
  | cons b t => exact Wp.of_ok (h.cons k hr) (hQ b t hr)

end Abs
end Verif

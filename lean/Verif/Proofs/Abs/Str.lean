import Verif.Proofs.Abs.Text
/-! # String literals -/

namespace Verif.Abs
open Reader Utf8 Json

/-! ## Bytes without line breaks -/

def NoBreak (bs : Bytes) : Prop := 0x0A ∉ bs ∧ 0x0D ∉ bs

theorem NoBreak.left {a b : Bytes} (h : NoBreak a) : NoSplit a b := by
  intro hl
  exact absurd (List.mem_of_getLast? hl) h.2

theorem NoBreak.right {a b : Bytes} (h : NoBreak b) : NoSplit a b := by
  intro _ hl
  exact absurd (List.mem_of_mem_head? (Option.mem_def.2 hl)) h.1

theorem Plain.noBreak {bs : Bytes} (h : Plain bs) : NoBreak bs :=
  ⟨fun hm => (h _ hm).2.1 rfl, fun hm => (h _ hm).2.2 rfl⟩

theorem NoBreak.append {a b : Bytes} (ha : NoBreak a) (hb : NoBreak b) : NoBreak (a ++ b) := by
  refine ⟨?_, ?_⟩ <;> rw [List.mem_append]
  · exact not_or.2 ⟨ha.1, hb.1⟩
  · exact not_or.2 ⟨ha.2, hb.2⟩

theorem NoBreak.nil : NoBreak [] := ⟨by simp, by simp⟩

theorem noBreak_char {c : Char} (h1 : c ≠ '\n') (h2 : c ≠ '\r') : NoBreak (String.utf8EncodeChar c) := by
  have hs := encShape c
  generalize String.utf8EncodeChar c = bs at hs
  have lf : ∀ b : UInt8, 0x80 ≤ b.toNat → (0x0A : UInt8) ≠ b ∧ (0x0D : UInt8) ≠ b := by
    intro b hb
    refine ⟨?_, ?_⟩ <;> (rintro rfl; exact absurd hb (by decide))
  unfold NoBreak
  cases hs with
  | one b0 h3 h4 =>
    simp only [List.mem_singleton]
    refine ⟨?_, ?_⟩
    · rintro rfl; exact h1 (char_ext h4)
    · rintro rfl; exact h2 (char_ext h4)
  | two b0 b1 => 
    have := lf b0 (by omega); have := lf b1 (by omega); simp_all
  | three b0 b1 b2 =>
    have := lf b0 (by omega); have := lf b1 (by omega); have := lf b2 (by omega); simp_all
  | four b0 b1 b2 b3 =>
    have := lf b0 (by omega); have := lf b1 (by omega); have := lf b2 (by omega); have := lf b3 (by omega); simp_all

/-! ## Escape sequences -/

theorem simpleEscape_map (b : UInt8) : (shortEscape b).map String.utf8EncodeChar = (simpleEscape b).map fun x => [x] := by
  by_cases h1 : b = 0x22; · subst h1; decide
  by_cases h2 : b = 0x5C; · subst h2; decide
  by_cases h3 : b = 0x2F; · subst h3; decide
  by_cases h4 : b = 0x62; · subst h4; decide
  by_cases h5 : b = 0x66; · subst h5; decide
  by_cases h6 : b = 0x6E; · subst h6; decide
  by_cases h7 : b = 0x72; · subst h7; decide
  by_cases h8 : b = 0x74; · subst h8; decide
  have e1 : simpleEscape b = none := by simp [simpleEscape, *]
  have e2 : shortEscape b = none := by
    unfold shortEscape
    split <;> first | contradiction | rfl
  rw [e1, e2]; rfl

theorem simpleEscape_some {b x : UInt8} (h : simpleEscape b = some x) : ∃ c, shortEscape b = some c ∧ String.utf8EncodeChar c = [x] := by
  have hm := simpleEscape_map b
  rw [h] at hm
  simpa using hm

theorem simpleEscape_of_some {b : UInt8} {c : Char} (h : shortEscape b = some c) :
    ∃ x, simpleEscape b = some x ∧ String.utf8EncodeChar c = [x] := by
  have hm := simpleEscape_map b
  rw [h] at hm
  cases hs : simpleEscape b with
  | none => rw [hs] at hm; cases hm
  | some x => rw [hs] at hm; exact ⟨x, rfl, by simpa using hm⟩

theorem shortEscape_plain {b : UInt8} {c : Char} (h : shortEscape b = some c) : b.toNat < 0x80 ∧ b ≠ 0x0A ∧ b ≠ 0x0D := by
  unfold shortEscape at h
  split at h <;> first | decide | cases h

theorem shortEscape_u : shortEscape 0x75 = none := by decide

theorem simpleEscape_u : simpleEscape 0x75 = none := by decide

/-! ## Items -/

theorem StrItem.Is.noBreak {i : StrItem} {c : Char} (h : i.Is c) : NoBreak i.bytes := by
  cases h with
  | char c h1 h2 h3 => exact noBreak_char (by rintro rfl; exact absurd h1 (by decide)) (by rintro rfl; exact absurd h1 (by decide))
  | short b c h => exact (plain_cons (by decide) (plain_cons (shortEscape_plain h) plain_nil)).noBreak
  | unicode h c h1 => exact (plain_append (a := [0x5C, 0x75]) (plain_cons (by decide) (plain_cons (by decide) plain_nil)) (UEsc.unicode h c h1).plain).noBreak
  | pair hi lo a b c h1 h2 h3 h4 h5 h6 h7 =>
    have := (plain_append (a := [0x5C, 0x75]) (plain_cons (by decide) (plain_cons (by decide) plain_nil)) (UEsc.pair hi lo a b c h1 h2 h3 h4 h5 h6 h7).plain).noBreak
    rw [← (UEsc.pair hi lo a b c h1 h2 h3 h4 h5 h6 h7).bytes] at this
    exact this

/-- The ways an item can look like -/
inductive ItemShape : StrItem → Char → Prop
  | ascii (b : UInt8) (c : Char) : 0x20 ≤ b.toNat → b.toNat < 0x80 → b ≠ 0x22 → b ≠ 0x5C → String.utf8EncodeChar c = [b] → ItemShape (.char c) c
  | multi (c : Char) (b0 : UInt8) (tl : Bytes) : 0x80 ≤ c.toNat → 0x80 ≤ b0.toNat → String.utf8EncodeChar c = b0 :: tl → ItemShape (.char c) c
  | short (b x : UInt8) (c : Char) : simpleEscape b = some x → String.utf8EncodeChar c = [x] → ItemShape (.short b) c
  | esc (i : StrItem) (bs : Bytes) (c : Char) : UEsc bs i c → ItemShape i c

theorem encodeChar_multi {c : Char} (h : 0x80 ≤ c.toNat) : ∃ b0 tl, 0x80 ≤ b0.toNat ∧ String.utf8EncodeChar c = b0 :: tl := by
  have hs := encShape c
  generalize String.utf8EncodeChar c = bs at hs
  cases hs with
  | one b0 => omega
  | two b0 b1 => exact ⟨b0, _, by omega, rfl⟩
  | three b0 b1 b2 => exact ⟨b0, _, by omega, rfl⟩
  | four b0 b1 b2 b3 => exact ⟨b0, _, by omega, rfl⟩

theorem encodeChar_ascii {c : Char} (h : c.toNat < 0x80) : ∃ b0 : UInt8, b0.toNat = c.toNat ∧ String.utf8EncodeChar c = [b0] := by
  have hs := encShape c
  generalize String.utf8EncodeChar c = bs at hs
  cases hs with
  | one b0 h1 h2 => exact ⟨b0, h2.symm, rfl⟩
  | two b0 b1 => omega
  | three b0 b1 b2 => omega
  | four b0 b1 b2 b3 => omega

/-- an ASCII byte as character -/
theorem encodeChar_byte {b : UInt8} (h : b.toNat < 0x80) : String.utf8EncodeChar (Char.ofNat b.toNat) = [b] := by
  have hv : (Char.ofNat b.toNat).toNat = b.toNat := ofNat_val (isValidChar_of (by omega) (by omega))
  obtain ⟨b0, h1, h2⟩ := encodeChar_ascii (c := Char.ofNat b.toNat) (by omega)
  rw [h2, byte_ext (h1.trans hv)]

theorem itemShape {i : StrItem} {c : Char} (h : i.Is c) : ItemShape i c := by
  cases h with
  | char c h1 h2 h3 =>
    by_cases hc : c.toNat < 0x80
    · obtain ⟨b, hb, he⟩ := encodeChar_ascii hc
      refine .ascii b c (by omega) (by omega) ?_ ?_ he
      · rintro rfl; exact h2 (char_ext hb.symm)
      · rintro rfl; exact h3 (char_ext hb.symm)
    · obtain ⟨b0, tl, hb, he⟩ := encodeChar_multi (c := c) (by omega)
      exact .multi c b0 tl (by omega) hb he
  | short b c h =>
    obtain ⟨x, hx, he⟩ := simpleEscape_of_some h
    exact .short b x c hx he
  | unicode h c h1 => exact .esc _ _ c (.unicode h c h1)
  | pair hi lo a b c h1 h2 h3 h4 h5 h6 h7 => exact .esc _ _ c (.pair hi lo a b c h1 h2 h3 h4 h5 h6 h7)

theorem ItemShape.is {i : StrItem} {c : Char} (h : ItemShape i c) : i.Is c := by
  cases h with
  | ascii b c h1 h2 h3 h4 he =>
    have hv : c.toNat = b.toNat := by
      have hs := encShape c
      rw [he] at hs
      cases hs; assumption
    refine .char c (by omega) ?_ ?_
    · rintro rfl; exact h3 (byte_ext hv.symm)
    · rintro rfl; exact h4 (byte_ext hv.symm)
  | multi c b0 tl h1 h2 he =>
    refine .char c (by omega) ?_ ?_ <;> (rintro rfl; exact absurd h1 (by decide))
  | short b x c h he =>
    obtain ⟨d, hd, hde⟩ := simpleEscape_some h
    have : d = c := by
      have := encodeChar_inj_append (c := d) (d := c) (x := []) (y := []) (by rw [hde, he])
      exact this.1
    subst this
    exact .short b d hd
  | esc i bs c h => exact h.is

theorem StrItem.bytes_ne_nil (i : StrItem) : i.bytes ≠ [] := by
  cases i <;> simp [StrItem.bytes]

theorem byte_lt_iff (a : UInt8) (n : Nat) (h : n < 256) : a < UInt8.ofNat n ↔ a.toNat < n := by
  rw [UInt8.lt_iff_toNat_lt, toNat_ofNat_lt h]

theorem lt20 {b : UInt8} (h : 0x20 ≤ b.toNat) : ¬ b < 0x20 := by
  rw [UInt8.lt_iff_toNat_lt]; exact Nat.not_lt.2 h

theorem lt80 {b : UInt8} : b < 0x80 ↔ b.toNat < 0x80 := UInt8.lt_iff_toNat_lt

/-- set the collected bytes -/
def setAcc (s : St) (acc : Bytes) : St := { s with src := { s.src with acc := acc } }

@[simp] theorem setAcc_rest (s : St) (a : Bytes) : (setAcc s a).src.rest = s.src.rest := rfl
@[simp] theorem setAcc_term (s : St) (a : Bytes) : (setAcc s a).src.term = s.src.term := rfl
@[simp] theorem setAcc_acc (s : St) (a : Bytes) : (setAcc s a).src.acc = a := rfl
theorem setAcc_setAcc (s : St) (a b : Bytes) : setAcc (setAcc s a) b = setAcc s b := rfl
theorem setAcc_mv (s : St) (a bs r : Bytes) : mv (setAcc s a) bs r = setAcc (mv s bs r) a := rfl

theorem plain_esc : Plain [0x5C] := plain_cons (by decide) plain_nil
theorem plain_quote : Plain [0x22] := plain_cons (by decide) plain_nil

theorem mv_of_plain (s : St) {bs : Bytes} {n : Nat} (r : Bytes) (h : Plain bs) (hn : bs.length = n) :
    mv s bs r = setRest { s with column := s.column + n, bytePos := s.bytePos + n } r := by
  subst hn
  rw [mv_plain s r h]; rfl

theorem mv_of_char (s : St) {c : Char} (r : Bytes) (h1 : c ≠ '\n') (h2 : c ≠ '\r') :
    mv s (String.utf8EncodeChar c) r =
      setRest { s with column := s.column + 1, bytePos := s.bytePos + (String.utf8EncodeChar c).length } r := by
  unfold mv
  rw [posRun_char _ h1 h2]; rfl

theorem mv_of_multi (s : St) {c : Char} (r : Bytes) (h : 0x80 ≤ c.toNat) :
    mv s (String.utf8EncodeChar c) r =
      setRest { s with column := s.column + 1, bytePos := s.bytePos + (String.utf8EncodeChar c).length } r :=
  mv_of_char s r (by rintro rfl; exact absurd h (by decide)) (by rintro rfl; exact absurd h (by decide))

theorem advance_eq (s : St) (x y : Nat) :
    (advance x y).run s = .ok () { s with column := s.column + x, bytePos := s.bytePos + y } := rfl

/-! ## `read_string_bytes` -/

theorem readStringBytes_item {s : St} {i : StrItem} {c : Char} {r : Bytes} (h : i.Is c) (hr : s.src.rest = i.bytes ++ r) :
    readStringBytes.run s = .ok (false, String.utf8EncodeChar c) (mv s i.bytes r) := by
  unfold readStringBytes
  cases itemShape h with
  | ascii b c h1 h2 h3 h4 he =>
    have hr' : s.src.rest = b :: r := by rw [hr, StrItem.bytes, he]; rfl
    rw [M.bind_ok (readByte_cons _ hr'), if_neg (by simpa using h4), if_neg (by simpa using h3), if_neg (lt20 h1), if_pos (lt80.2 h2),
      StrItem.bytes, he, mv_of_plain s (n := 1) r (plain_cons ⟨h2, by rintro rfl; exact absurd h1 (by decide), by rintro rfl; exact absurd h1 (by decide)⟩ plain_nil) rfl]
    rfl
  | multi c b0 tl h1 h2 he =>
    have hr' : s.src.rest = b0 :: (tl ++ r) := by rw [hr, StrItem.bytes, he]; rfl
    rw [M.bind_ok (readByte_cons _ hr'), if_neg (by rw [beq_iff_eq]; rintro rfl; exact absurd h2 (by decide)),
      if_neg (by rw [beq_iff_eq]; rintro rfl; exact absurd h2 (by decide)), if_neg (lt20 (by omega)), if_neg (by rw [lt80]; omega),
      M.bind_ok (readUtf8Multibyte_complete isRb_readByte he h1 (r := r) rfl), ← he, StrItem.bytes, mv_of_multi s r h1]
    rfl
  | short b x c hx he =>
    have hr' : s.src.rest = 0x5C :: b :: r := by rw [hr]; rfl
    obtain ⟨d, hd, _⟩ := simpleEscape_some hx
    rw [M.bind_ok (readByte_cons _ hr'), if_pos (by decide), M.bind_ok (readByte_cons (b := b) (t := r) _ rfl), hx, he, StrItem.bytes,
      mv_of_plain s (n := 2) r (plain_cons (by decide) (plain_cons (shortEscape_plain hd) plain_nil)) rfl]
    rfl
  | esc i bs c hu =>
    have hr' : s.src.rest = 0x5C :: 0x75 :: (bs ++ r) := by rw [hr, hu.bytes]; rfl
    rw [M.bind_ok (readByte_cons _ hr'), if_pos (by decide), M.bind_ok (readByte_cons (b := 0x75) (t := bs ++ r) _ rfl), simpleEscape_u]
    dsimp only
    rw [if_pos (by decide), M.bind_ok (readUnicodeEscapeChar_complete isRb_readByte hu (r := r) rfl), hu.bytes,
      mv_of_plain s (n := 2 + bs.length) r (plain_append (plain_cons (by decide) (plain_cons (by decide) plain_nil)) hu.plain) (by simp; omega)]
    rfl

theorem readStringBytes_quote {s : St} {r : Bytes} (hr : s.src.rest = 0x22 :: r) :
    readStringBytes.run s = .ok (true, []) (mv s [0x22] r) := by
  unfold readStringBytes
  rw [M.bind_ok (readByte_cons _ hr), if_neg (by decide), if_pos (by decide), mv_of_plain s (n := 1) r plain_quote rfl]
  rfl

theorem readStringBytes_lo {s : St} (ht : s.src.term = none) : Lo readStringBytes s (fun p s' =>
    (∃ r, s.src.rest = 0x22 :: r ∧ p = (true, []) ∧ s' = mv s [0x22] r) ∨
    (∃ i c r, StrItem.Is i c ∧ s.src.rest = i.bytes ++ r ∧ p = (false, String.utf8EncodeChar c) ∧ s' = mv s i.bytes r)) := by
  unfold readStringBytes
  refine Wp.bind (isRb_readByte.lo ht fun b t hr => ?_)
  refine Wp.ite (fun h1 => ?_) fun h1 => ?_
  · have h1 := eq_of_beq h1
    subst h1
    refine Wp.bind (isRb_readByte.lo (by simpa using ht) fun b2 t2 hr2 => ?_)
    rw [eat_rest] at hr2; subst hr2
    cases hx : simpleEscape b2 with
    | some x =>
      dsimp only
      obtain ⟨d, hd, hde⟩ := simpleEscape_some hx
      refine Wp.of_ok (by rfl) (.inr ⟨.short b2, d, t2, .short b2 d hd, hr, by rw [hde], ?_⟩)
      rw [StrItem.bytes, mv_of_plain s (n := 2) t2 (plain_cons (by decide) (plain_cons (shortEscape_plain hd) plain_nil)) rfl]
      rfl
    | none =>
      dsimp only
      refine Wp.ite (fun h2 => ?_) fun h2 => Lo.syntaxErr
      have h2 := eq_of_beq h2
      subst h2
      refine Wp.bind' (readUnicodeEscapeChar_lo isRb_readByte (by simpa using ht)) ?_
      rintro ⟨c, n⟩ _ ⟨bs, r, i, hu, hn, hr3, rfl⟩
      dsimp only at hn hu ⊢
      rw [eat_rest] at hr3; subst hr3; subst hn
      refine Wp.of_ok (by rfl) (.inr ⟨i, c, r, hu.is, by rw [hr, hu.bytes]; rfl, rfl, ?_⟩)
      rw [hu.bytes, mv_of_plain s (n := 2 + bs.length) r (plain_append (plain_cons (by decide) (plain_cons (by decide) plain_nil)) hu.plain) (by simp; omega)]
      rfl
  · refine Wp.ite (fun h2 => ?_) fun h2 => ?_
    · have h2 := eq_of_beq h2
      subst h2
      refine Wp.of_ok (by rfl) (.inl ⟨t, hr, rfl, ?_⟩)
      rw [mv_of_plain s (n := 1) t plain_quote rfl]
      rfl
    · refine Wp.ite (fun h3 => Lo.syntaxErr) fun h3 => ?_
      have h3 : 0x20 ≤ b.toNat := by rw [UInt8.lt_iff_toNat_lt] at h3; exact Nat.not_lt.1 h3
      refine Wp.ite (fun h4 => ?_) fun h4 => ?_
      · rw [lt80] at h4
        refine Wp.of_ok (by rfl) (.inr ⟨.char (Char.ofNat b.toNat), Char.ofNat b.toNat, t, ?_, ?_, ?_, ?_⟩)
        · exact (ItemShape.ascii b _ h3 h4 (by simpa using h2) (by simpa using h1) (encodeChar_byte h4)).is
        · rw [StrItem.bytes, encodeChar_byte h4]; exact hr
        · rw [encodeChar_byte h4]
        · rw [StrItem.bytes, encodeChar_byte h4, mv_of_plain s (n := 1) t (plain_cons ⟨h4, by rintro rfl; exact absurd h3 (by decide), by rintro rfl; exact absurd h3 (by decide)⟩ plain_nil) rfl]
          rfl
      · rw [lt80] at h4
        refine Wp.bind' (readUtf8Multibyte_lo isRb_readByte (by simpa using ht) b) ?_
        rintro bytes _ ⟨c, tl, r, he, hc, rfl, hr2, rfl⟩
        rw [eat_rest] at hr2; subst hr2
        refine Wp.of_ok (by rfl) (.inr ⟨.char c, c, r, (ItemShape.multi c b tl hc (by omega) he).is, ?_, ?_, ?_⟩)
        · rw [StrItem.bytes, he]; exact hr
        · rw [he]
        · rw [StrItem.bytes, mv_of_multi s r hc, he]; rfl

/-! ## `read_string` -/

theorem readStringLoop_item {s : St} {i : StrItem} {c : Char} {r : Bytes} {rq : Bool} {f : Nat} (h : i.Is c) (hr : s.src.rest = i.bytes ++ r) :
    (readStringLoop rq (f + 1)).run s =
      (readStringLoop rq f).run (setAcc (mv s i.bytes r) (s.src.acc ++ String.utf8EncodeChar c)) := by
  rw [readStringLoop]
  cases itemShape h with
  | ascii b c h1 h2 h3 h4 he =>
    have hr' : s.src.rest = b :: r := by rw [hr, StrItem.bytes, he]; rfl
    rw [M.bind_ok (vReadByte_cons _ hr'), if_neg (by simpa using h4), if_neg (by simpa using h3), if_neg (lt20 h1), if_pos (lt80.2 h2),
      StrItem.bytes, he, mv_of_plain s (n := 1) r (plain_cons ⟨h2, by rintro rfl; exact absurd h1 (by decide), by rintro rfl; exact absurd h1 (by decide)⟩ plain_nil) rfl]
    rfl
  | multi c b0 tl h1 h2 he =>
    have hr' : s.src.rest = b0 :: (tl ++ r) := by rw [hr, StrItem.bytes, he]; rfl
    rw [M.bind_ok (vReadByte_cons _ hr'), if_neg (by rw [beq_iff_eq]; rintro rfl; exact absurd h2 (by decide)),
      if_neg (by rw [beq_iff_eq]; rintro rfl; exact absurd h2 (by decide)), if_neg (lt20 (by omega)), if_neg (by rw [lt80]; omega),
      M.bind_ok (readUtf8Multibyte_complete isRb_vReadByte he h1 (r := r) rfl), eat_eat, ← he, StrItem.bytes, mv_of_multi s r h1, he]
    rfl
  | short b x c hx he =>
    have hr' : s.src.rest = 0x5C :: b :: r := by rw [hr]; rfl
    obtain ⟨d, hd, _⟩ := simpleEscape_some hx
    rw [M.bind_ok (vReadByte_cons _ hr'), if_pos (by decide), StrItem.bytes,
      mv_of_plain s (n := 2) r (plain_cons (by decide) (plain_cons (shortEscape_plain hd) plain_nil)) rfl]
    refine M.bind_ok (a := ()) ?_
    unfold readStringEscape
    rw [M.bind_ok (vSkipPrevious_run _), M.bind_ok (vReadByte_cons (b := b) (t := r) _ rfl), hx]
    dsimp only
    split
    · rename_i hbx
      have hbx := eq_of_beq hbx
      subst hbx
      rw [he, advance_eq]
      simp [eat, setAcc, setRest]
    · rw [M.bind_ok (vSkipPrevious_run _), M.bind_ok rfl, advance_eq, he]
      simp [eat, setAcc, setRest]
  | esc i bs c hu =>
    have hr' : s.src.rest = 0x5C :: 0x75 :: (bs ++ r) := by rw [hr, hu.bytes]; rfl
    rw [M.bind_ok (vReadByte_cons _ hr'), if_pos (by decide)]
    refine M.bind_ok (a := ()) ?_
    unfold readStringEscape
    rw [M.bind_ok (vSkipPrevious_run _), M.bind_ok (vReadByte_cons (b := 0x75) (t := bs ++ r) _ rfl), simpleEscape_u]
    dsimp only
    rw [if_pos (by decide), M.bind_ok (vSkipPrevious_run _), M.bind_ok (readUnicodeEscapeChar_complete isRb_vReadByteSkip hu (r := r) rfl)]
    dsimp only
    rw [M.bind_ok (advance_eq _ _ _), M.bind_ok rfl, advance_eq, hu.bytes,
      mv_of_plain s (n := bs.length + 2) r (plain_append (plain_cons (by decide) (plain_cons (by decide) plain_nil)) hu.plain) (by simp)]
    simp [eat, setAcc, setRest, Nat.add_assoc]

theorem readStringLoop_quote {s : St} {r : Bytes} {rq : Bool} {f : Nat} (hr : s.src.rest = 0x22 :: r) :
    (readStringLoop rq (f + 1)).run s = .ok () (mv s [0x22] r) := by
  rw [readStringLoop, M.bind_ok (vReadByte_cons _ hr), if_neg (by decide), if_pos (by decide), M.bind_ok (advance_eq _ _ _),
    mv_of_plain s (n := 1) r plain_quote rfl]
  simp only [eat, if_true]
  show Res.ok _ _ = _
  simp [setRest]

theorem itemsAre_noBreak {is : List StrItem} {cs : Text} (h : ItemsAre is cs) : NoBreak (is.flatMap StrItem.bytes) := by
  induction h with
  | nil => exact NoBreak.nil
  | cons hi _ ih => rw [List.flatMap_cons]; exact (StrItem.Is.noBreak hi).append ih

theorem itemsAre_length {is : List StrItem} {cs : Text} (h : ItemsAre is cs) : is.length ≤ (is.flatMap StrItem.bytes).length := by
  induction h with
  | nil => simp
  | @cons i c is cs hi _ ih =>
    rw [List.flatMap_cons, List.length_append, List.length_cons]
    have := List.length_pos_iff.2 (StrItem.bytes_ne_nil i)
    omega

theorem enc_cons (c : Char) (cs : Text) : enc (c :: cs) = String.utf8EncodeChar c ++ enc cs := rfl

theorem readStringLoop_complete {is : List StrItem} {cs : Text} (h : ItemsAre is cs) :
    ∀ {s : St} {r : Bytes} {rq : Bool} {f : Nat}, s.src.rest = is.flatMap StrItem.bytes ++ 0x22 :: r → is.length < f →
    (readStringLoop rq f).run s = .ok () (setAcc (mv s (is.flatMap StrItem.bytes ++ [0x22]) r) (s.src.acc ++ enc cs)) := by
  induction h with
  | nil =>
    intro s r rq f hr hf
    obtain ⟨f, rfl⟩ := Nat.exists_eq_succ_of_ne_zero (Nat.ne_of_gt hf)
    rw [readStringLoop_quote hr]
    simp [enc, setAcc]
    rfl
  | @cons i c is cs hi h ih =>
    intro s r rq f hr hf
    obtain ⟨f, rfl⟩ := Nat.exists_eq_succ_of_ne_zero (Nat.ne_of_gt (Nat.lt_of_le_of_lt (Nat.zero_le _) hf))
    rw [List.flatMap_cons, List.append_assoc] at hr
    rw [Nat.succ_eq_add_one, readStringLoop_item hi hr, ih (r := r) rfl (by simp at hf; omega), setAcc_mv, setAcc_setAcc,
      mv_mv s _ _ (StrItem.Is.noBreak hi).left, enc_cons, List.flatMap_cons]
    simp

theorem readStringLoop_bad {rq : Bool} {f : Nat} {s : St} (ht : s.src.term = none)
    (hi : ∀ i c r, StrItem.Is i c → s.src.rest ≠ i.bytes ++ r) (hq : ∀ r, s.src.rest ≠ 0x22 :: r) :
    Lo (readStringLoop rq (f + 1)) s (fun _ _ => False) := by
  rw [readStringLoop]
  refine Wp.bind (isRb_vReadByte.lo ht fun b t hr => ?_)
  refine Wp.ite (fun h1 => ?_) fun h1 => ?_
  · have h1 := eq_of_beq h1
    subst h1
    refine Wp.bind' (P := fun _ _ => False) ?_ (fun _ _ h => h.elim)
    unfold readStringEscape
    refine Wp.bind_ok (vSkipPrevious_run _) ?_
    refine Wp.bind (isRb_vReadByte.lo (by simpa using ht) fun b2 t2 hr2 => ?_)
    have hr2 : t = b2 :: t2 := hr2
    subst hr2
    cases hx : simpleEscape b2 with
    | some x =>
      obtain ⟨d, hd, hde⟩ := simpleEscape_some hx
      exact absurd hr (hi (.short b2) d t2 (.short b2 d hd))
    | none =>
      dsimp only
      refine Wp.ite (fun h2 => ?_) fun h2 => Lo.syntaxErr
      have h2 := eq_of_beq h2
      subst h2
      refine Wp.bind_ok (vSkipPrevious_run _) ?_
      refine Wp.bind' (readUnicodeEscapeChar_lo isRb_vReadByteSkip (by simpa using ht)) ?_
      rintro ⟨c, n⟩ _ ⟨bs, r, i, hu, hn, hr3, rfl⟩
      have hr3 : t2 = bs ++ r := hr3
      subst hr3
      exact absurd (by rw [hr, hu.bytes]; rfl) (hi i c r hu.is)
  · refine Wp.ite (fun h2 => ?_) fun h2 => ?_
    · have h2 := eq_of_beq h2
      subst h2
      exact absurd hr (hq t)
    · refine Wp.ite (fun h3 => Lo.syntaxErr) fun h3 => ?_
      have h3 : 0x20 ≤ b.toNat := by rw [UInt8.lt_iff_toNat_lt] at h3; exact Nat.not_lt.1 h3
      refine Wp.ite (fun h4 => ?_) fun h4 => ?_
      · rw [lt80] at h4
        exact absurd (by rw [StrItem.bytes, encodeChar_byte h4]; exact hr)
          (hi _ _ t (ItemShape.ascii b _ h3 h4 (by simpa using h2) (by simpa using h1) (encodeChar_byte h4)).is)
      · rw [lt80] at h4
        refine Wp.bind' (readUtf8Multibyte_lo isRb_vReadByte (by simpa using ht) b) ?_
        rintro bytes _ ⟨c, tl, r, he, hc, rfl, hr2, rfl⟩
        rw [eat_rest] at hr2; subst hr2
        exact absurd (by rw [StrItem.bytes, he]; exact hr) (hi _ _ r (ItemShape.multi c b tl hc (by omega) he).is)

theorem readStringLoop_lo {rq : Bool} {f : Nat} : ∀ {s : St}, s.src.term = none → s.src.rest.length < f →
    Lo (readStringLoop rq f) s (fun _ s' => ∃ is cs r, ItemsAre is cs ∧ s.src.rest = is.flatMap StrItem.bytes ++ 0x22 :: r ∧
      s' = setAcc (mv s (is.flatMap StrItem.bytes ++ [0x22]) r) (s.src.acc ++ enc cs)) := by
  induction f with
  | zero => intro s _ h; omega
  | succ f ih =>
    intro s ht hf
    by_cases hi : ∃ i c r, StrItem.Is i c ∧ s.src.rest = i.bytes ++ r
    · obtain ⟨i, c, r, hi, hr⟩ := hi
      have hlen := List.length_pos_iff.2 (StrItem.bytes_ne_nil i)
      refine Wp.congr (readStringLoop_item hi hr) ?_
      refine (ih (s := setAcc (mv s i.bytes r) (s.src.acc ++ String.utf8EncodeChar c)) (by simpa using ht) (by
        have := congrArg List.length hr; simp at this; simp; omega)).post ?_
      rintro _ _ ⟨is, cs, r', h1, h2, rfl⟩
      refine ⟨i :: is, c :: cs, r', .cons hi h1, ?_, ?_⟩
      · rw [hr]; simp at h2; simp [h2]
      · rw [setAcc_mv, setAcc_setAcc, mv_mv s _ _ (StrItem.Is.noBreak hi).left, enc_cons, List.flatMap_cons]; simp
    · by_cases hq : ∃ r, s.src.rest = 0x22 :: r
      · obtain ⟨r, hr⟩ := hq
        exact Wp.of_ok (readStringLoop_quote hr) ⟨[], [], r, .nil, hr, by simp [enc, setAcc]; rfl⟩
      · refine (readStringLoop_bad ht ?_ ?_).post (fun _ _ h => h.elim)
        · intro i c r h1 h2; exact hi ⟨i, c, r, h1, h2⟩
        · intro r h; exact hq ⟨r, h⟩

/-! ## Complete strings

`s.acc` is not changed by the skipping functions and set to the text by `read_string`. -/

theorem fuel_eq (s : St) : fuel s = s.src.rest.length + 2 := rfl

theorem readString_complete {x : Str} (hx : x.Ok) {s : St} {r : Bytes} {rq : Bool} (hr : s.src.rest = x.body ++ 0x22 :: r) :
    (readString rq).run s = .ok () (setAcc (mv s (x.body ++ [0x22]) r) (enc x.text)) := by
  unfold readString
  refine (M.bind_ok (a := ()) (s' := setAcc s []) rfl).trans ?_
  rw [run_get]
  refine (readStringLoop_complete hx (s := setAcc s []) (r := r) hr ?_).trans ?_
  · have := itemsAre_length hx
    rw [fuel_eq, setAcc_rest, hr, List.length_append]
    unfold Str.body; omega
  · rfl

theorem readString_lo {s : St} (ht : s.src.term = none) (rq : Bool) : Lo (readString rq) s (fun _ s' => ∃ (x : Str) (r : Bytes), x.Ok ∧
    s.src.rest = x.body ++ 0x22 :: r ∧ s' = setAcc (mv s (x.body ++ [0x22]) r) (enc x.text)) := by
  unfold readString
  refine Wp.bind_ok (a := ()) (s' := setAcc s []) rfl ?_
  refine Wp.get ?_
  refine (readStringLoop_lo (s := setAcc s []) ht (by rw [fuel_eq]; omega)).post ?_
  rintro _ _ ⟨is, cs, r, h1, h2, rfl⟩
  exact ⟨⟨is, cs⟩, r, h1, h2, rfl⟩

theorem skipAllLoop_complete {is : List StrItem} {cs : Text} (h : ItemsAre is cs) :
    ∀ {s : St} {r : Bytes} {f : Nat}, s.src.rest = is.flatMap StrItem.bytes ++ 0x22 :: r → is.length < f →
    (skipAllStringBytesLoop f).run s = .ok () (mv s (is.flatMap StrItem.bytes ++ [0x22]) r) := by
  induction h with
  | nil =>
    intro s r f hr hf
    obtain ⟨f, rfl⟩ := Nat.exists_eq_succ_of_ne_zero (Nat.ne_of_gt hf)
    rw [skipAllStringBytesLoop, M.bind_ok (readStringBytes_quote hr)]
    rfl
  | @cons i c is cs hi h ih =>
    intro s r f hr hf
    obtain ⟨f, rfl⟩ := Nat.exists_eq_succ_of_ne_zero (Nat.ne_of_gt (Nat.lt_of_le_of_lt (Nat.zero_le _) hf))
    rw [List.flatMap_cons, List.append_assoc] at hr
    rw [skipAllStringBytesLoop, M.bind_ok (readStringBytes_item hi hr)]
    refine (ih (s := mv s i.bytes _) (r := r) rfl (by simp at hf; omega)).trans ?_
    rw [mv_mv s _ _ (StrItem.Is.noBreak hi).left, List.flatMap_cons]
    simp

theorem skipAllLoop_lo {f : Nat} : ∀ {s : St}, s.src.term = none → s.src.rest.length < f →
    Lo (skipAllStringBytesLoop f) s (fun _ s' => ∃ is cs r, ItemsAre is cs ∧ s.src.rest = is.flatMap StrItem.bytes ++ 0x22 :: r ∧
      s' = mv s (is.flatMap StrItem.bytes ++ [0x22]) r) := by
  induction f with
  | zero => intro s _ h; omega
  | succ f ih =>
    intro s ht hf
    rw [skipAllStringBytesLoop]
    refine Wp.bind' (readStringBytes_lo ht) ?_
    rintro _ _ (⟨r, hr, rfl, rfl⟩ | ⟨i, c, r, hi, hr, rfl, rfl⟩)
    · exact Wp.pure ⟨[], [], r, .nil, hr, rfl⟩
    · have hlen := List.length_pos_iff.2 (StrItem.bytes_ne_nil i)
      refine (ih (s := mv s i.bytes r) (by simpa using ht) (by
        have := congrArg List.length hr; simp at this; simp; omega)).post ?_
      rintro _ _ ⟨is, cs, r', h1, h2, rfl⟩
      refine ⟨i :: is, c :: cs, r', .cons hi h1, ?_, ?_⟩
      · rw [hr]; simp at h2; simp [h2]
      · rw [mv_mv s _ _ (StrItem.Is.noBreak hi).left, List.flatMap_cons]; simp

theorem skipAll_complete {x : Str} (hx : x.Ok) {s : St} {r : Bytes} (hr : s.src.rest = x.body ++ 0x22 :: r) :
    skipAllStringBytes.run s = .ok () (mv s (x.body ++ [0x22]) r) := by
  unfold skipAllStringBytes
  rw [run_get]
  refine skipAllLoop_complete hx hr ?_
  have := itemsAre_length hx
  rw [fuel_eq, hr, List.length_append]
  unfold Str.body; omega

theorem skipAll_lo {s : St} (ht : s.src.term = none) : Lo skipAllStringBytes s (fun _ s' => ∃ (x : Str) (r : Bytes), x.Ok ∧
    s.src.rest = x.body ++ 0x22 :: r ∧ s' = mv s (x.body ++ [0x22]) r) := by
  unfold skipAllStringBytes
  refine Wp.get ?_
  refine (skipAllLoop_lo ht (by rw [fuel_eq]; omega)).post ?_
  rintro _ _ ⟨is, cs, r, h1, h2, rfl⟩
  exact ⟨⟨is, cs⟩, r, h1, h2, rfl⟩

theorem getString_run {s : St} {cs : Text} (h : s.src.acc = enc cs) :
    (liftS ByteSource.getString : R AbsSrc Text).run s = .ok cs (setAcc s []) := by
  have hr : (AbsSrc.getStr).run s.src = .ok cs { s.src with acc := [] } := by
    unfold AbsSrc.getStr
    dsimp only
    rw [h, toStrUnchecked, decodeUtf8_enc]
  unfold liftS
  dsimp only [ByteSource.getString, ByteSource.getStrPeek]
  rw [hr]
  rfl

theorem getStr_run {s : St} {cs : Text} (h : s.src.acc = enc cs) :
    (liftS ByteSource.getStr : R AbsSrc Text).run s = .ok cs (setAcc s []) := getString_run h

theorem getStrPeek_run {s : St} {cs : Text} (h : s.src.acc = enc cs) :
    (liftS ByteSource.getStrPeek : R AbsSrc Text).run s = .ok cs s := by
  have hr : (AbsSrc.getStrPeek).run s.src = .ok cs s.src := by
    unfold AbsSrc.getStrPeek
    dsimp only
    rw [h, toStrUnchecked, decodeUtf8_enc]
  unfold liftS
  dsimp only [ByteSource.getString, ByteSource.getStrPeek]
  rw [hr]

end Verif.Abs

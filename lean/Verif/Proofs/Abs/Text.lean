import Verif.Proofs.Abs.Basic
import Verif.Spec.Json
/-! # Multi-byte characters and escape sequences -/

namespace Verif.Abs
open Reader Utf8

variable {keep : Bool} {rb : SyntaxKind → R AbsSrc UInt8}

theorem checkValid_lo {v : Option Bool} {bs : Bytes} {s : St} {Q : Bytes → St → Prop} (h0 : v ≠ none)
    (h : v = some true → Q bs s) : Lo (checkValid v bs) s Q := by
  rcases v with _ | _ | _
  · exact absurd rfl h0
  · exact Lo.utf8Err
  · exact h rfl

theorem not_iff_false {b : Bool} {p : Prop} (h : b = true ↔ p) : (!b) = true ↔ ¬ p := by
  cases b <;> simp_all

theorem readUtf8Multibyte_lo (hrb : IsRb keep rb) {s : St} (ht : s.src.term = none) (b0 : UInt8) :
    Lo (readUtf8Multibyte rb b0) s (fun bytes s' => ∃ c tl r, String.utf8EncodeChar c = b0 :: tl ∧ 0x80 ≤ c.toNat ∧
      bytes = b0 :: tl ∧ s.src.rest = tl ++ r ∧ s' = eat keep tl r s) := by
  unfold readUtf8Multibyte
  refine Wp.bind (hrb.lo ht ?_)
  intro b1 t1 hr1
  refine Wp.ite (fun _ => Lo.utf8Err) fun hc1 => ?_
  have hc1 := (isContinuation_iff b1).1 (by simpa using hc1)
  refine Wp.ite (fun h2 => ?_) fun h2 => ?_
  · have h2' := (is2byteStart_iff b0).1 h2
    refine checkValid_lo ?_ ?_
    · unfold isValid2bytes
      rw [h2, (isContinuation_iff b1).2 hc1]
      simp
    · intro hv
      unfold isValid2bytes at hv
      rw [h2, (isContinuation_iff b1).2 hc1] at hv
      simp only [Bool.and_self, if_true, Option.some.injEq, decide_eq_true_eq, codePoint2_eq] at hv
      have hval : (Char.ofNat (codePoint2 b0 b1)).toNat = codePoint2 b0 b1 :=
        ofNat_val (isValidChar_of (by rw [codePoint2_eq]; omega) (by rw [codePoint2_eq]; omega))
      rw [codePoint2_eq] at hval
      refine ⟨Char.ofNat (b0.toNat % 32 * 64 + b1.toNat % 64), [b1], t1, encShape_eq (.two b0 b1 h2'.1 h2'.2 hc1.1 hc1.2 ?_ ?_), ?_, rfl, hr1, rfl⟩ <;> rw [hval] <;> omega
  · have h2' := mt (is2byteStart_iff b0).2 h2
    refine Wp.bind (hrb.lo (by simpa using ht) ?_)
    intro b2 t2 hr2
    rw [eat_rest] at hr2
    subst hr2
    rw [eat_eat]
    refine Wp.ite (fun _ => Lo.utf8Err) fun hc2 => ?_
    have hc2 := (isContinuation_iff b2).1 (by simpa using hc2)
    refine Wp.ite (fun h3 => ?_) fun h3 => ?_
    · have h3' := (is3byteStart_iff b0).1 h3
      refine checkValid_lo ?_ ?_
      · unfold isValid3bytes
        rw [h3, (isContinuation_iff b1).2 hc1, (isContinuation_iff b2).2 hc2]
        simp
      · intro hv
        unfold isValid3bytes at hv
        rw [h3, (isContinuation_iff b1).2 hc1, (isContinuation_iff b2).2 hc2] at hv
        simp only [Bool.and_self, if_true, Option.some.injEq, codePoint3_eq, Bool.and_eq_true, decide_eq_true_eq,
          Bool.not_eq_true', Bool.and_eq_false_iff, decide_eq_false_iff_not] at hv
        have hval : (Char.ofNat (codePoint3 b0 b1 b2)).toNat = codePoint3 b0 b1 b2 :=
          ofNat_val (isValidChar_of (by rw [codePoint3_eq]; omega) (by rw [codePoint3_eq]; omega))
        rw [codePoint3_eq] at hval
        refine ⟨Char.ofNat (b0.toNat % 16 * 4096 + b1.toNat % 64 * 64 + b2.toNat % 64), [b1, b2], t2, encShape_eq (.three b0 b1 b2 h3'.1 h3'.2 hc1.1 hc1.2 hc2.1 hc2.2 ?_ ?_), ?_, rfl, hr1, rfl⟩ <;>
          rw [hval] <;> omega
    · have h3' := mt (is3byteStart_iff b0).2 h3
      refine Wp.ite (fun h4 => ?_) fun h4 => Lo.utf8Err
      have h4' := (is4byteStart_iff b0).1 h4
      refine Wp.bind (hrb.lo (by simpa using ht) ?_)
      intro b3 t3 hr3
      rw [eat_rest] at hr3
      subst hr3
      rw [eat_eat]
      refine Wp.ite (fun _ => Lo.utf8Err) fun hc3 => ?_
      have hc3 := (isContinuation_iff b3).1 (by simpa using hc3)
      refine checkValid_lo ?_ ?_
      · unfold isValid4bytes
        rw [h4, (isContinuation_iff b1).2 hc1, (isContinuation_iff b2).2 hc2, (isContinuation_iff b3).2 hc3]
        simp
      · intro hv
        unfold isValid4bytes at hv
        rw [h4, (isContinuation_iff b1).2 hc1, (isContinuation_iff b2).2 hc2, (isContinuation_iff b3).2 hc3] at hv
        simp only [Bool.and_self, if_true, Option.some.injEq, codePoint4_eq, Bool.and_eq_true, decide_eq_true_eq] at hv
        have hval : (Char.ofNat (codePoint4 b0 b1 b2 b3)).toNat = codePoint4 b0 b1 b2 b3 :=
          ofNat_val (isValidChar_of (by rw [codePoint4_eq]; omega) (by rw [codePoint4_eq]; omega))
        rw [codePoint4_eq] at hval
        refine ⟨Char.ofNat (b0.toNat % 8 * 262144 + b1.toNat % 64 * 4096 + b2.toNat % 64 * 64 + b3.toNat % 64), [b1, b2, b3], t3, encShape_eq (.four b0 b1 b2 b3 h4'.1 h4'.2 hc1.1 hc1.2 hc2.1 hc2.2 hc3.1 hc3.2 ?_ ?_), ?_, rfl, hr1, rfl⟩ <;>
          rw [hval] <;> omega

theorem readUtf8Multibyte_complete (hrb : IsRb keep rb) {s : St} {c : Char} {b0 : UInt8} {tl r : Bytes}
    (he : String.utf8EncodeChar c = b0 :: tl) (h0 : 0x80 ≤ c.toNat) (hr : s.src.rest = tl ++ r) :
    (readUtf8Multibyte rb b0).run s = .ok (b0 :: tl) (eat keep tl r s) := by
  have hs := encShape c
  have hns := char_not_surrogate c
  have hlt := char_val_lt c
  rw [he] at hs
  unfold readUtf8Multibyte
  cases hs with
  | one b0 h1 h2 => omega
  | two b0 b1 h1 h2 h3 h4 h5 h6 =>
    have hC1 := (isContinuation_iff b1).2 ⟨h3, h4⟩
    have hB := (is2byteStart_iff b0).2 ⟨h1, h2⟩
    rw [M.bind_ok (hrb.cons _ hr)]
    rw [if_neg (by rw [hC1]; decide), if_pos hB]
    unfold isValid2bytes
    rw [hC1, hB, codePoint2_eq]
    have : decide (b0.toNat % 32 * 64 + b1.toNat % 64 ≥ 128) = true := by simp; omega
    simp only [Bool.and_self, if_true, this]
    rfl
  | three b0 b1 b2 h1 h2 h3 h4 h5 h6 h7 h8 =>
    have hC1 := (isContinuation_iff b1).2 ⟨h3, h4⟩
    have hC2 := (isContinuation_iff b2).2 ⟨h5, h6⟩
    have hB2 : is2byteStart b0 = false := Bool.eq_false_iff.2 (mt (is2byteStart_iff b0).1 (by omega))
    have hB := (is3byteStart_iff b0).2 ⟨h1, h2⟩
    rw [M.bind_ok (hrb.cons _ hr)]
    rw [if_neg (by rw [hC1]; decide), if_neg (by rw [hB2]; decide), M.bind_ok (hrb.cons (b := b2) (t := r) _ rfl),
      if_neg (by rw [hC2]; decide), if_pos hB, eat_eat]
    unfold isValid3bytes
    rw [hC1, hC2, hB, codePoint3_eq]
    have h9 : decide (b0.toNat % 16 * 4096 + b1.toNat % 64 * 64 + b2.toNat % 64 ≥ 2048) = true := by simp; omega
    have h10 : (decide (55296 ≤ b0.toNat % 16 * 4096 + b1.toNat % 64 * 64 + b2.toNat % 64) &&
      decide (b0.toNat % 16 * 4096 + b1.toNat % 64 * 64 + b2.toNat % 64 ≤ 57343)) = false := by
      simp only [Bool.and_eq_false_iff, decide_eq_false_iff_not]; omega
    simp only [Bool.and_self, if_true, h9, h10, Bool.not_false]
    rfl
  | four b0 b1 b2 b3 h1 h2 h3 h4 h5 h6 h7 h8 h9 h10 =>
    have hC1 := (isContinuation_iff b1).2 ⟨h3, h4⟩
    have hC2 := (isContinuation_iff b2).2 ⟨h5, h6⟩
    have hC3 := (isContinuation_iff b3).2 ⟨h7, h8⟩
    have hB2 : is2byteStart b0 = false := Bool.eq_false_iff.2 (mt (is2byteStart_iff b0).1 (by omega))
    have hB3 : is3byteStart b0 = false := Bool.eq_false_iff.2 (mt (is3byteStart_iff b0).1 (by omega))
    have hB := (is4byteStart_iff b0).2 ⟨h1, h2⟩
    rw [M.bind_ok (hrb.cons _ hr)]
    rw [if_neg (by rw [hC1]; decide), if_neg (by rw [hB2]; decide), M.bind_ok (hrb.cons (b := b2) (t := b3 :: r) _ rfl),
      if_neg (by rw [hC2]; decide), if_neg (by rw [hB3]; decide), if_pos hB, eat_eat,
      M.bind_ok (hrb.cons (b := b3) (t := r) _ rfl),
      if_neg (by rw [hC3]; decide), eat_eat]
    unfold isValid4bytes
    rw [hC1, hC2, hC3, hB, codePoint4_eq]
    have h11 : decide (65536 ≤ b0.toNat % 8 * 262144 + b1.toNat % 64 * 4096 + b2.toNat % 64 * 64 + b3.toNat % 64) = true := by simp; omega
    have h12 : decide (b0.toNat % 8 * 262144 + b1.toNat % 64 * 4096 + b2.toNat % 64 * 64 + b3.toNat % 64 ≤ 1114111) = true := by simp; omega
    simp only [Bool.and_self, if_true, h11, h12]
    rfl

/-! ## Unicode escapes -/

open Json

theorem parseHexDigit_some {b : UInt8} {n : Nat} (h : hexVal b = some n) (s : St) : (parseHexDigit b : R AbsSrc Nat).run s = .ok n s := by
  unfold hexVal at h
  unfold parseHexDigit
  simp only [UInt8.le_iff_toNat_le, Bool.and_eq_true, decide_eq_true_eq]
  have e1 : (0x30 : UInt8).toNat = 0x30 := rfl
  have e2 : (0x39 : UInt8).toNat = 0x39 := rfl
  have e3 : (0x61 : UInt8).toNat = 0x61 := rfl
  have e4 : (0x66 : UInt8).toNat = 0x66 := rfl
  have e5 : (0x41 : UInt8).toNat = 0x41 := rfl
  have e6 : (0x46 : UInt8).toNat = 0x46 := rfl
  rw [e1, e2, e3, e4, e5, e6]
  split at h
  · rename_i hc
    rw [if_pos hc]
    cases h; rfl
  · rename_i hc
    rw [if_neg hc]
    split at h
    · rename_i hd
      rw [if_neg (by omega), if_pos hd]
      cases h; rfl
    · rename_i hd
      split at h
      · rename_i he
        rw [if_pos he]
        cases h; rfl
      · cases h

theorem parseHexDigit_lo {b : UInt8} {s : St} {Q : Nat → St → Prop} (h : ∀ n, hexVal b = some n → Q n s) :
    Lo (parseHexDigit b) s Q := by
  cases hv : hexVal b with
  | some n => exact Wp.of_ok (parseHexDigit_some hv s) (h n hv)
  | none =>
    refine Wp.of_err (e := .syntax .malformedEscapeSequence (loc s)) (s' := s) ?_ trivial
    unfold hexVal at hv
    unfold parseHexDigit
    simp only [UInt8.le_iff_toNat_le, Bool.and_eq_true, decide_eq_true_eq]
    have e1 : (0x30 : UInt8).toNat = 0x30 := rfl
    have e2 : (0x39 : UInt8).toNat = 0x39 := rfl
    have e3 : (0x61 : UInt8).toNat = 0x61 := rfl
    have e4 : (0x66 : UInt8).toNat = 0x66 := rfl
    have e5 : (0x41 : UInt8).toNat = 0x41 := rfl
    have e6 : (0x46 : UInt8).toNat = 0x46 := rfl
    rw [e1, e2, e3, e4, e5, e6]
    split at hv
    · cases hv
    · split at hv
      · cases hv
      · split at hv
        · cases hv
        · rw [if_neg (by assumption), if_neg (by assumption), if_neg (by assumption)]
          rfl

theorem hexVal_lt {b : UInt8} {n : Nat} (h : hexVal b = some n) : n < 16 := by
  unfold hexVal at h
  split at h
  · cases h; omega
  · split at h
    · cases h; omega
    · split at h
      · cases h; omega
      · cases h

theorem hex_combine {a b c d : Nat} (hb : b < 16) (hc : c < 16) (hd : d < 16) :
    (d ||| c <<< 4 ||| b <<< 8 ||| a <<< 12) = ((a * 16 + b) * 16 + c) * 16 + d := by
  have h1 : d ||| c <<< 4 = c * 16 + d := by
    rw [Nat.or_comm, ← Nat.shiftLeft_add_eq_or_of_lt (by omega), Nat.shiftLeft_eq]
  have h2 : (c * 16 + d) ||| b <<< 8 = b * 256 + (c * 16 + d) := by
    rw [Nat.or_comm, ← Nat.shiftLeft_add_eq_or_of_lt (by omega), Nat.shiftLeft_eq]
  have h3 : (b * 256 + (c * 16 + d)) ||| a <<< 12 = a * 4096 + (b * 256 + (c * 16 + d)) := by
    rw [Nat.or_comm, ← Nat.shiftLeft_add_eq_or_of_lt (by omega), Nat.shiftLeft_eq]
  rw [h1, h2, h3]
  omega

theorem readHexByte_lo (hrb : IsRb keep rb) {s : St} (ht : s.src.term = none) {Q : Nat → St → Prop}
    (h : ∀ b t n, s.src.rest = b :: t → hexVal b = some n → Q n (eat keep [b] t s)) : Lo (readHexByte rb) s Q := by
  unfold readHexByte
  refine Wp.bind (hrb.lo ht fun b t hr => ?_)
  exact parseHexDigit_lo fun n hn => h b t n hr hn

theorem readHexByte_complete (hrb : IsRb keep rb) {s : St} {b : UInt8} {t : Bytes} {n : Nat} (hr : s.src.rest = b :: t)
    (hn : hexVal b = some n) : (readHexByte rb).run s = .ok n (eat keep [b] t s) := by
  unfold readHexByte
  rw [M.bind_ok (hrb.cons _ hr)]
  exact parseHexDigit_some hn _

theorem readUnicodeEscape_lo (hrb : IsRb keep rb) {s : St} (ht : s.src.term = none) :
    Lo (readUnicodeEscape rb) s (fun n s' => ∃ (h : Hex4) (r : Bytes), h.Is n ∧ s.src.rest = h.bytes ++ r ∧ s' = eat keep h.bytes r s) := by
  unfold readUnicodeEscape
  refine Wp.bind (readHexByte_lo hrb ht fun b1 t1 n1 hr1 hn1 => ?_)
  refine Wp.bind (readHexByte_lo hrb (by simpa using ht) fun b2 t2 n2 hr2 hn2 => ?_)
  rw [eat_rest] at hr2; subst hr2
  rw [eat_eat]
  refine Wp.bind (readHexByte_lo hrb (by simpa using ht) fun b3 t3 n3 hr3 hn3 => ?_)
  rw [eat_rest] at hr3; subst hr3
  rw [eat_eat]
  refine Wp.bind (readHexByte_lo hrb (by simpa using ht) fun b4 t4 n4 hr4 hn4 => ?_)
  rw [eat_rest] at hr4; subst hr4
  rw [eat_eat]
  refine Wp.pure ⟨⟨b1, b2, b3, b4⟩, t4, ⟨n1, n2, n3, n4, hn1, hn2, hn3, hn4, ?_⟩, hr1, rfl⟩
  exact hex_combine (hexVal_lt hn2) (hexVal_lt hn3) (hexVal_lt hn4)

theorem readUnicodeEscape_complete (hrb : IsRb keep rb) {s : St} {h : Hex4} {n : Nat} {r : Bytes} (hn : h.Is n) (hr : s.src.rest = h.bytes ++ r) :
    (readUnicodeEscape rb).run s = .ok n (eat keep h.bytes r s) := by
  obtain ⟨a, b, c, d, h1, h2, h3, h4, rfl⟩ := hn
  unfold readUnicodeEscape
  rw [M.bind_ok (readHexByte_complete hrb hr h1), M.bind_ok (readHexByte_complete hrb (b := h.d2) rfl h2), eat_eat,
    M.bind_ok (readHexByte_complete hrb (b := h.d3) rfl h3), eat_eat, M.bind_ok (readHexByte_complete hrb (b := h.d4) rfl h4), eat_eat,
    hex_combine (hexVal_lt h2) (hexVal_lt h3) (hexVal_lt h4)]
  rfl

theorem Hex4.Is.lt {h : Hex4} {n : Nat} (hn : h.Is n) : n < 0x10000 := by
  obtain ⟨a, b, c, d, h1, h2, h3, h4, rfl⟩ := hn
  have := hexVal_lt h1; have := hexVal_lt h2; have := hexVal_lt h3; have := hexVal_lt h4
  omega

theorem hexVal_plain {b : UInt8} {n : Nat} (h : hexVal b = some n) : b.toNat < 0x80 ∧ b ≠ 0x0A ∧ b ≠ 0x0D := by
  have h' : 0x30 ≤ b.toNat ∧ b.toNat < 0x80 := by
    unfold hexVal at h
    split at h
    · omega
    · split at h
      · omega
      · split at h
        · omega
        · cases h
  refine ⟨h'.2, ?_, ?_⟩ <;> (rintro rfl; exact absurd h'.1 (by decide))

theorem Hex4.Is.plain {h : Hex4} {n : Nat} (hn : h.Is n) : Plain h.bytes := by
  obtain ⟨a, b, c, d, h1, h2, h3, h4, rfl⟩ := hn
  exact plain_cons (hexVal_plain h1) (plain_cons (hexVal_plain h2) (plain_cons (hexVal_plain h3) (plain_cons (hexVal_plain h4) plain_nil)))

theorem charFromU32_some {n : Nat} {c : Char} (h : c.toNat = n) : charFromU32 n = some c := by
  subst h
  unfold charFromU32
  rw [dif_pos (show c.toNat.isValidChar from c.valid)]
  rfl

theorem escapedChar_run {n k : Nat} {c : Char} (h : c.toNat = n) (s : St) : (escapedChar n k : R AbsSrc (Char × Nat)).run s = .ok (c, k) s := by
  unfold escapedChar
  rw [charFromU32_some h]
  rfl

theorem exists_char {n : Nat} (h : n < 0x110000) (h2 : ¬ (0xD800 ≤ n ∧ n < 0xE000)) : ∃ c : Char, c.toNat = n :=
  ⟨Char.ofNat n, ofNat_val (isValidChar_of h h2)⟩

theorem pair_combine {a b : Nat} (hb : 0xDC00 ≤ b) (hb2 : b < 0xE000) :
    (((a - 0xD800) <<< 10 ||| (b - 0xDC00)) + 0x10000) = 0x10000 + (a - 0xD800) * 0x400 + (b - 0xDC00) := by
  rw [← Nat.shiftLeft_add_eq_or_of_lt (by omega), Nat.shiftLeft_eq]
  omega

theorem exists_pair_char {a b : Nat} (ha : 0xD800 ≤ a) (ha2 : a < 0xDC00) (hb : 0xDC00 ≤ b) (hb2 : b < 0xE000) :
    ∃ c : Char, c.toNat = 0x10000 + (a - 0xD800) * 0x400 + (b - 0xDC00) ∧ c.toNat = (((a - 0xD800) <<< 10 ||| (b - 0xDC00)) + 0x10000) := by
  rw [pair_combine hb hb2]
  generalize hn : 0x10000 + (a - 0xD800) * 0x400 + (b - 0xDC00) = n
  obtain ⟨c, hc⟩ := exists_char (n := n) (by omega) (by omega)
  exact ⟨c, hc, hc⟩

/-- an escape sequence behind `\u` -/
inductive UEsc : Bytes → StrItem → Char → Prop
  | unicode (h : Hex4) (c : Char) : h.Is c.toNat → UEsc h.bytes (.unicode h) c
  | pair (hi lo : Hex4) (a b : Nat) (c : Char) : hi.Is a → lo.Is b → 0xD800 ≤ a → a < 0xDC00 → 0xDC00 ≤ b → b < 0xE000 →
      c.toNat = 0x10000 + (a - 0xD800) * 0x400 + (b - 0xDC00) → UEsc (hi.bytes ++ [0x5C, 0x75] ++ lo.bytes) (.pair hi lo) c

theorem UEsc.bytes {bs : Bytes} {i : StrItem} {c : Char} (h : UEsc bs i c) : i.bytes = [0x5C, 0x75] ++ bs := by
  cases h <;> simp [StrItem.bytes]

theorem UEsc.is {bs : Bytes} {i : StrItem} {c : Char} (h : UEsc bs i c) : i.Is c := by
  cases h with
  | unicode h c h1 => exact .unicode h c h1
  | pair hi lo a b c h1 h2 h3 h4 h5 h6 h7 => exact .pair hi lo a b c h1 h2 h3 h4 h5 h6 h7

theorem UEsc.plain {bs : Bytes} {i : StrItem} {c : Char} (h : UEsc bs i c) : Plain bs := by
  cases h with
  | unicode h c h1 => exact Hex4.Is.plain h1
  | pair hi lo a b c h1 h2 h3 h4 h5 h6 h7 =>
    exact plain_append (plain_append (Hex4.Is.plain h1) (plain_cons (by decide) (plain_cons (by decide) plain_nil))) (Hex4.Is.plain h2)

theorem readUnicodeEscapeChar_lo (hrb : IsRb keep rb) {s : St} (ht : s.src.term = none) :
    Lo (readUnicodeEscapeChar rb) s (fun p s' => ∃ (bs r : Bytes) (i : StrItem), UEsc bs i p.1 ∧ p.2 = bs.length ∧
      s.src.rest = bs ++ r ∧ s' = eat keep bs r s) := by
  unfold readUnicodeEscapeChar
  refine Wp.bind' (readUnicodeEscape_lo hrb ht) ?_
  rintro n _ ⟨h, r, hn, hr, rfl⟩
  have hlt := Hex4.Is.lt hn
  refine Wp.ite (fun _ => Lo.syntaxErr) fun hc1 => ?_
  simp only [Bool.and_eq_true, decide_eq_true_eq] at hc1
  refine Wp.ite (fun hc2 => ?_) fun hc2 => ?_
  · simp only [Bool.and_eq_true, decide_eq_true_eq] at hc2
    refine Wp.bind (hrb.lo (by simpa using ht) fun b1 t1 hr1 => ?_)
    rw [eat_rest] at hr1; subst hr1
    rw [eat_eat]
    refine Wp.ite (fun hb1 => ?_) fun _ => Lo.syntaxErr
    have hb1 := eq_of_beq hb1
    subst hb1
    refine Wp.bind (hrb.lo (by simpa using ht) fun b2 t2 hr2 => ?_)
    rw [eat_rest] at hr2; subst hr2
    rw [eat_eat]
    refine Wp.ite (fun hb2 => ?_) fun _ => Lo.syntaxErr
    have hb2 := eq_of_beq hb2
    subst hb2
    unfold readLowSurrogate
    refine Wp.bind' (readUnicodeEscape_lo hrb (by simpa using ht)) ?_
    rintro m _ ⟨lo, r', hm, hr', rfl⟩
    rw [eat_rest] at hr'; subst hr'
    rw [eat_eat]
    refine Wp.ite (fun _ => Lo.syntaxErr) fun hc3 => ?_
    simp only [Bool.not_eq_true', Bool.and_eq_false_iff, decide_eq_false_iff_not, not_or, Decidable.not_not] at hc3
    have hX := exists_pair_char (a := n) (b := m) hc2.1 (by omega) hc3.1 (by omega)
    generalize ((n - 0xD800) <<< 10 ||| (m - 0xDC00)) + 0x10000 = k at hX ⊢
    obtain ⟨c, hc, hc'⟩ := hX
    refine Wp.of_ok (escapedChar_run hc' _) ?_
    have hu := UEsc.pair h lo n m c hn hm hc2.1 (by omega) hc3.1 (by omega) hc
    refine ⟨_, r', _, hu, by simp [Hex4.bytes], ?_, ?_⟩
    · rw [hr]; simp
    · congr 1
  · simp only [Bool.and_eq_true, decide_eq_true_eq] at hc2
    obtain ⟨c, rfl⟩ := exists_char (n := n) (by omega) (by omega)
    refine Wp.of_ok (escapedChar_run rfl _) ?_
    exact ⟨h.bytes, r, .unicode h, .unicode h c hn, rfl, hr, rfl⟩

theorem readUnicodeEscapeChar_complete (hrb : IsRb keep rb) {s : St} {bs r : Bytes} {i : StrItem} {c : Char} (h : UEsc bs i c)
    (hr : s.src.rest = bs ++ r) : (readUnicodeEscapeChar rb).run s = .ok (c, bs.length) (eat keep bs r s) := by
  unfold readUnicodeEscapeChar
  cases h with
  | unicode h c hn =>
    have := char_not_surrogate c
    rw [M.bind_ok (readUnicodeEscape_complete hrb hn hr), if_neg (by simp only [Bool.and_eq_true, decide_eq_true_eq]; omega),
      if_neg (by simp only [Bool.and_eq_true, decide_eq_true_eq]; omega), escapedChar_run rfl]
    rfl
  | pair hi lo a b c h1 h2 h3 h4 h5 h6 h7 =>
    have hr' : s.src.rest = hi.bytes ++ (0x5C :: 0x75 :: (lo.bytes ++ r)) := by rw [hr]; simp
    rw [M.bind_ok (readUnicodeEscape_complete hrb h1 hr'), if_neg (by simp only [Bool.and_eq_true, decide_eq_true_eq]; omega),
      if_pos (by simp only [Bool.and_eq_true, decide_eq_true_eq]; omega), M.bind_ok (hrb.cons (b := 0x5C) _ rfl), if_pos (by decide), eat_eat,
      M.bind_ok (hrb.cons (b := 0x75) _ rfl), if_pos (by decide), eat_eat]
    unfold readLowSurrogate
    rw [M.bind_ok (readUnicodeEscape_complete hrb (r := r) h2 rfl), eat_eat,
      if_neg (by simp only [Bool.not_eq_true', Bool.and_eq_false_iff, decide_eq_false_iff_not]; omega),
      escapedChar_run (h7.trans (pair_combine h5 h6).symm)]
    simp [Hex4.bytes]

end Verif.Abs

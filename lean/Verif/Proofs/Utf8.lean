import Verif.Model.Utf8
/-! Lemmas about `utf8.rs` and the UTF-8 encoding -/

namespace Verif.Utf8

/-- Case distinction over all 256 bytes -/
theorem forallByte {P : UInt8 → Prop} (h : ∀ n : Fin 256, P (UInt8.ofNat n)) (b : UInt8) : P b := by
  have := h ⟨b.toNat, b.toNat_lt⟩
  simpa using this

theorem is1byte_iff (b : UInt8) : is1byte b = true ↔ b.toNat < 0x80 := by
  revert b; apply forallByte; decide +kernel
theorem is2byteStart_iff (b : UInt8) : is2byteStart b = true ↔ 0xC0 ≤ b.toNat ∧ b.toNat < 0xE0 := by
  revert b; apply forallByte; decide +kernel
theorem is3byteStart_iff (b : UInt8) : is3byteStart b = true ↔ 0xE0 ≤ b.toNat ∧ b.toNat < 0xF0 := by
  revert b; apply forallByte; decide +kernel
theorem is4byteStart_iff (b : UInt8) : is4byteStart b = true ↔ 0xF0 ≤ b.toNat ∧ b.toNat < 0xF8 := by
  revert b; apply forallByte; decide +kernel
theorem isContinuation_iff (b : UInt8) : isContinuation b = true ↔ 0x80 ≤ b.toNat ∧ b.toNat < 0xC0 := by
  revert b; apply forallByte; decide +kernel

theorem mask2 (b : UInt8) : (b &&& 0b00011111).toNat = b.toNat % 32 := by
  revert b; apply forallByte; decide +kernel
theorem mask3 (b : UInt8) : (b &&& 0b00001111).toNat = b.toNat % 16 := by
  revert b; apply forallByte; decide +kernel
theorem mask4 (b : UInt8) : (b &&& 0b00000111).toNat = b.toNat % 8 := by
  revert b; apply forallByte; decide +kernel
theorem maskC (b : UInt8) : (b &&& 0b00111111).toNat = b.toNat % 64 := by
  revert b; apply forallByte; decide +kernel

theorem codePoint2_eq (b0 b1 : UInt8) : codePoint2 b0 b1 = (b0.toNat % 32) * 64 + b1.toNat % 64 := by
  unfold codePoint2
  rw [mask2, maskC, ← Nat.shiftLeft_add_eq_or_of_lt (by omega), Nat.shiftLeft_eq]

theorem codePoint3_eq (b0 b1 b2 : UInt8) :
    codePoint3 b0 b1 b2 = (b0.toNat % 16) * 4096 + (b1.toNat % 64) * 64 + b2.toNat % 64 := by
  unfold codePoint3
  rw [mask3, maskC, maskC, Nat.or_assoc, ← Nat.shiftLeft_add_eq_or_of_lt (i := 6) (by omega),
    ← Nat.shiftLeft_add_eq_or_of_lt (i := 12) (by rw [Nat.shiftLeft_eq]; omega),
    Nat.shiftLeft_eq, Nat.shiftLeft_eq]
  omega

theorem codePoint4_eq (b0 b1 b2 b3 : UInt8) :
    codePoint4 b0 b1 b2 b3 =
      (b0.toNat % 8) * 262144 + (b1.toNat % 64) * 4096 + (b2.toNat % 64) * 64 + b3.toNat % 64 := by
  unfold codePoint4
  rw [mask4, maskC, maskC, maskC, Nat.or_assoc, Nat.or_assoc,
    ← Nat.shiftLeft_add_eq_or_of_lt (i := 6) (by omega),
    ← Nat.shiftLeft_add_eq_or_of_lt (i := 12) (by rw [Nat.shiftLeft_eq]; omega),
    ← Nat.shiftLeft_add_eq_or_of_lt (i := 18) (by rw [Nat.shiftLeft_eq, Nat.shiftLeft_eq]; omega),
    Nat.shiftLeft_eq, Nat.shiftLeft_eq, Nat.shiftLeft_eq]
  omega

theorem byte_ext {a b : UInt8} (h : a.toNat = b.toNat) : a = b := UInt8.toNat_inj.mp h

theorem toNat_ofNat_lt {n : Nat} (h : n < 256) : (UInt8.ofNat n).toNat = n := by
  simp [UInt8.toNat_ofNat', Nat.mod_eq_of_lt h]

/-- the code point of a character -/
theorem char_val_lt (c : Char) : c.toNat < 0x110000 := by
  have : c.toNat.isValidChar := c.valid
  simp only [Nat.isValidChar] at this
  omega

theorem char_not_surrogate (c : Char) : ¬ (0xD800 ≤ c.toNat ∧ c.toNat < 0xE000) := by
  have : c.toNat.isValidChar := c.valid
  simp only [Nat.isValidChar] at this
  omega

theorem ofNat_val {n : Nat} (h : n.isValidChar) : (Char.ofNat n).toNat = n := by
  unfold Char.ofNat
  rw [dif_pos h]
  rfl

theorem char_ext {a b : Char} (h : a.toNat = b.toNat) : a = b :=
  Char.ext (UInt32.toNat_inj.mp h)

theorem ofNat_self (c : Char) : Char.ofNat c.toNat = c :=
  char_ext (ofNat_val c.valid)

theorem encodeChar_eq (c : Char) : String.utf8EncodeChar c =
    if c.toNat ≤ 127 then [UInt8.ofNat c.toNat]
    else if c.toNat ≤ 2047 then
      [UInt8.ofNat (c.toNat / 64 % 32 + 192), UInt8.ofNat (c.toNat % 64 + 128)]
    else if c.toNat ≤ 65535 then
      [UInt8.ofNat (c.toNat / 4096 % 16 + 224), UInt8.ofNat (c.toNat / 64 % 64 + 128),
        UInt8.ofNat (c.toNat % 64 + 128)]
    else
      [UInt8.ofNat (c.toNat / 262144 % 8 + 240), UInt8.ofNat (c.toNat / 4096 % 64 + 128),
        UInt8.ofNat (c.toNat / 64 % 64 + 128), UInt8.ofNat (c.toNat % 64 + 128)] := rfl

/-- What the encoding of a character can look like, in terms of plain arithmetic. -/
inductive EncShape (c : Char) : Bytes → Prop
  | one (b0 : UInt8) : b0.toNat < 0x80 → c.toNat = b0.toNat → EncShape c [b0]
  | two (b0 b1 : UInt8) : 0xC0 ≤ b0.toNat → b0.toNat < 0xE0 → 0x80 ≤ b1.toNat → b1.toNat < 0xC0 →
      c.toNat = (b0.toNat - 0xC0) * 64 + (b1.toNat - 0x80) → 0x80 ≤ c.toNat → EncShape c [b0, b1]
  | three (b0 b1 b2 : UInt8) : 0xE0 ≤ b0.toNat → b0.toNat < 0xF0 → 0x80 ≤ b1.toNat → b1.toNat < 0xC0 →
      0x80 ≤ b2.toNat → b2.toNat < 0xC0 →
      c.toNat = (b0.toNat - 0xE0) * 4096 + (b1.toNat - 0x80) * 64 + (b2.toNat - 0x80) →
      0x800 ≤ c.toNat → EncShape c [b0, b1, b2]
  | four (b0 b1 b2 b3 : UInt8) : 0xF0 ≤ b0.toNat → b0.toNat < 0xF8 → 0x80 ≤ b1.toNat → b1.toNat < 0xC0 →
      0x80 ≤ b2.toNat → b2.toNat < 0xC0 → 0x80 ≤ b3.toNat → b3.toNat < 0xC0 →
      c.toNat = (b0.toNat - 0xF0) * 262144 + (b1.toNat - 0x80) * 4096 + (b2.toNat - 0x80) * 64
        + (b3.toNat - 0x80) →
      0x10000 ≤ c.toNat → EncShape c [b0, b1, b2, b3]

theorem encShape (c : Char) : EncShape c (String.utf8EncodeChar c) := by
  have hlt := char_val_lt c
  rw [encodeChar_eq]
  split
  · apply EncShape.one <;> rw [toNat_ofNat_lt (by omega)]; omega
  · split
    · apply EncShape.two <;> (try simp only [toNat_ofNat_lt, show c.toNat / 64 % 32 + 192 < 256 by omega,
        show c.toNat % 64 + 128 < 256 by omega]) <;> omega
    · split
      · apply EncShape.three <;> (try simp only [toNat_ofNat_lt, show c.toNat / 4096 % 16 + 224 < 256 by omega,
          show c.toNat / 64 % 64 + 128 < 256 by omega,
          show c.toNat % 64 + 128 < 256 by omega]) <;> omega
      · apply EncShape.four <;> (try simp only [toNat_ofNat_lt, show c.toNat / 262144 % 8 + 240 < 256 by omega,
          show c.toNat / 4096 % 64 + 128 < 256 by omega,
          show c.toNat / 64 % 64 + 128 < 256 by omega,
          show c.toNat % 64 + 128 < 256 by omega]) <;> omega

theorem encShape_eq {c : Char} {bs : Bytes} (h : EncShape c bs) : String.utf8EncodeChar c = bs := by
  have hlt := char_val_lt c
  rw [encodeChar_eq]
  cases h with
  | one b0 h0 h1 =>
    rw [if_pos (by omega), h1]
    simp
  | two b0 b1 h0 h1 h2 h3 h4 h5 =>
    rw [if_neg (by omega), if_pos (by omega)]
    simp only [List.cons.injEq, and_true]
    constructor <;> apply byte_ext <;> rw [toNat_ofNat_lt (by omega)] <;> omega
  | three b0 b1 b2 h0 h1 h2 h3 h4 h5 h6 h7 =>
    rw [if_neg (by omega), if_neg (by omega), if_pos (by omega)]
    simp only [List.cons.injEq, and_true]
    refine ⟨?_, ?_, ?_⟩ <;> apply byte_ext <;> rw [toNat_ofNat_lt (by omega)] <;> omega
  | four b0 b1 b2 b3 h0 h1 h2 h3 h4 h5 h6 h7 h8 h9 =>
    rw [if_neg (by omega), if_neg (by omega), if_neg (by omega)]
    simp only [List.cons.injEq, and_true]
    refine ⟨?_, ?_, ?_, ?_⟩ <;> apply byte_ext <;> rw [toNat_ofNat_lt (by omega)] <;> omega

theorem encShape_iff {c : Char} {bs : Bytes} : EncShape c bs ↔ String.utf8EncodeChar c = bs :=
  ⟨encShape_eq, fun h => h ▸ encShape c⟩

theorem isValidChar_of {n : Nat} (h : n < 0x110000) (h2 : ¬ (0xD800 ≤ n ∧ n < 0xE000)) : n.isValidChar := by
  simp only [Nat.isValidChar]; omega

theorem enc_of_shape1 {b0 : UInt8} (h : b0.toNat < 0x80) :
    String.utf8EncodeChar (Char.ofNat b0.toNat) = [b0] :=
  encShape_eq (.one b0 h (ofNat_val (isValidChar_of (by omega) (by omega))))

theorem encodeChar_ne_nil (c : Char) : String.utf8EncodeChar c ≠ [] := by
  intro h
  have := encShape c
  rw [h] at this
  cases this

theorem encodeChar_inj_append {c d : Char} {x y : Bytes}
    (h : String.utf8EncodeChar c ++ x = String.utf8EncodeChar d ++ y) : c = d ∧ x = y := by
  have hc := encShape c
  have hd := encShape d
  generalize String.utf8EncodeChar c = ec at *
  generalize String.utf8EncodeChar d = ed at *
  have key : c = d → ec = ed := fun e => by subst e; rw [← encShape_eq hc, ← encShape_eq hd]
  suffices hcd : c = d by
    refine ⟨hcd, ?_⟩
    rw [key hcd] at h
    exact List.append_cancel_left h
  apply char_ext
  cases hc <;> cases hd <;> simp only [List.cons_append, List.nil_append, List.cons.injEq] at h <;>
    (obtain ⟨rfl, h⟩ := h) <;> first
      | omega
      | (obtain ⟨rfl, h⟩ := h; first
          | omega
          | (obtain ⟨rfl, h⟩ := h; first
              | omega
              | (obtain ⟨rfl, h⟩ := h; omega)))

theorem enc_injective {a b : Text} (h : enc a = enc b) : a = b := by
  induction a generalizing b with
  | nil =>
    cases b with
    | nil => rfl
    | cons c b =>
      simp only [enc_nil, enc_cons] at h
      exact absurd (List.append_eq_nil_iff.mp h.symm).1 (encodeChar_ne_nil c)
  | cons c a ih =>
    cases b with
    | nil =>
      simp only [enc_nil, enc_cons] at h
      exact absurd (List.append_eq_nil_iff.mp h).1 (encodeChar_ne_nil c)
    | cons d b =>
      simp only [enc_cons] at h
      obtain ⟨rfl, h'⟩ := encodeChar_inj_append h
      rw [ih h']

theorem decodeUtf8_enc_cons (c : Char) (bs : Bytes) :
    decodeUtf8 (String.utf8EncodeChar c ++ bs) = (decodeUtf8 bs).map (c :: ·) := by
  have hv := char_val_lt c
  have hs := char_not_surrogate c
  have h := encShape c
  generalize String.utf8EncodeChar c = ec at h
  cases h with
  | one b0 h0 h1 =>
    simp only [List.cons_append, List.nil_append]
    rw [decodeUtf8.eq_def]; dsimp only; rw [if_pos h0, ← h1, ofNat_self]
  | two b0 b1 h0 h1 h2 h3 h4 h5 =>
    simp only [List.cons_append, List.nil_append]
    rw [decodeUtf8.eq_def]; dsimp only; rw [if_neg (by omega)]
    simp only [h2, h3, show 0xC2 ≤ b0.toNat by omega, h1]
    simp [← h4]
  | three b0 b1 b2 h0 h1 h2 h3 h4 h5 h6 h7 =>
    simp only [List.cons_append, List.nil_append]
    rw [decodeUtf8.eq_def]; dsimp only; rw [if_neg (by omega)]
    simp only [h2, h3, show ¬ (b0.toNat < 0xE0) by omega, h4, h5, h0, h1, ← h6]
    simp [h7, show ¬ (55296 ≤ c.toNat ∧ c.toNat < 57344) by omega]
  | four b0 b1 b2 b3 h0 h1 h2 h3 h4 h5 h6 h7 h8 h9 =>
    simp only [List.cons_append, List.nil_append]
    rw [decodeUtf8.eq_def]; dsimp only; rw [if_neg (by omega)]
    simp only [h2, h3, show ¬ (b0.toNat < 0xE0) by omega, h4, h5, show ¬ (b0.toNat < 0xF0) by omega, h6, h7, h0, h1, ← h8]
    simp [h9, hv]

theorem decodeUtf8_enc (cs : Text) : decodeUtf8 (enc cs) = some cs := by
  induction cs with
  | nil => rfl
  | cons c cs ih => rw [enc_cons, decodeUtf8_enc_cons, ih]; rfl

theorem enc_of_decodeUtf8 {bs : Bytes} {cs : Text} (h : decodeUtf8 bs = some cs) : bs = enc cs := by
  fun_induction decodeUtf8 bs generalizing cs <;>
    simp only [Option.map_eq_some_iff, reduceCtorEq, Option.some.injEq] at h
  case case1 => subst h; rfl
  case case2 b0 t0 hb ih =>
    obtain ⟨cs', h, rfl⟩ := h
    rw [enc_cons, ← ih h, enc_of_shape1 hb]; rfl
  case case5 b0 hb b1 t1 hc h2 ih =>
    obtain ⟨cs', h, rfl⟩ := h
    simp at hc h2
    have hv := ofNat_val (n := (b0.toNat - 0xC0) * 64 + (b1.toNat - 0x80)) (isValidChar_of (by omega) (by omega))
    rw [enc_cons, ← ih h, encShape_eq (.two b0 b1 (by omega) (by omega) (by omega) (by omega) hv (by omega))]; rfl
  case case8 b0 hb b1 hc h2 b2 t2 hc2 h3 cp hcp ih =>
    obtain ⟨cs', h, rfl⟩ := h
    simp at hc h2 hc2 h3 hcp
    have hb2 := b2.toNat_lt
    have hv := ofNat_val (n := cp) (isValidChar_of (by omega) (by omega))
    rw [enc_cons, ← ih h, encShape_eq (.three b0 b1 b2 (by omega) (by omega) (by omega) (by omega) (by omega) (by omega) hv (by omega))]; rfl
  case case12 b0 hb b1 hc h2 b2 hc2 h3 b3 t3 hc3 h4 cp hcp ih =>
    obtain ⟨cs', h, rfl⟩ := h
    simp at hc h2 hc2 h3 hc3 h4 hcp
    have hv := ofNat_val (n := cp) (isValidChar_of (by omega) (by omega))
    rw [enc_cons, ← ih h, encShape_eq (.four b0 b1 b2 b3 (by omega) (by omega) (by omega) (by omega) (by omega) (by omega) (by omega) (by omega) hv (by omega))]; rfl

theorem decodeUtf8_eq_some_iff {bs : Bytes} {cs : Text} : decodeUtf8 bs = some cs ↔ bs = enc cs :=
  ⟨enc_of_decodeUtf8, fun h => h ▸ decodeUtf8_enc cs⟩

end Verif.Utf8

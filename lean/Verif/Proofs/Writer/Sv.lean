import Verif.Proofs.Writer.Str
/-!
# The string value writer: incomplete UTF-8 data
-/

namespace Verif.Writer
open Json Utf8
open WSpec hiding Frame

/-! ## Bytes of characters -/

/-- length of the character started by this byte -/
def startLen (b : UInt8) : Option Nat :=
  if b.toNat < 0x80 then some 1
  else if b.toNat < 0xC0 then none
  else if b.toNat < 0xE0 then some 2
  else if b.toNat < 0xF0 then some 3
  else if b.toNat < 0xF8 then some 4
  else none

theorem encChar_cases (ch : Char) : ∃ b r, String.utf8EncodeChar ch = b :: r ∧ startLen b = some (r.length + 1) ∧ (∀ x ∈ r, isContinuation x = true) ∧ r.length ≤ 3 := by
  have h := encShape ch
  generalize String.utf8EncodeChar ch = bs at h
  cases h with
  | one b0 h1 => exact ⟨b0, [], rfl, by unfold startLen; rw [if_pos h1]; rfl, nofun, by simp⟩
  | two b0 b1 h0 h1 h2 h3 =>
    refine ⟨b0, [b1], rfl, ?_, ?_, by simp⟩
    · unfold startLen; rw [if_neg (by omega), if_neg (by omega), if_pos (by omega)]; rfl
    · simp only [List.mem_cons, List.not_mem_nil, or_false, isContinuation_iff]; rintro _ rfl; omega
  | three b0 b1 b2 h0 h1 h2 h3 h4 h5 =>
    refine ⟨b0, [b1, b2], rfl, ?_, ?_, by simp⟩
    · unfold startLen; rw [if_neg (by omega), if_neg (by omega), if_neg (by omega), if_pos (by omega)]; rfl
    · simp only [List.mem_cons, List.not_mem_nil, or_false, isContinuation_iff]; rintro _ (rfl | rfl) <;> omega
  | four b0 b1 b2 b3 h0 h1 h2 h3 h4 h5 h6 h7 =>
    refine ⟨b0, [b1, b2, b3], rfl, ?_, ?_, by simp⟩
    · unfold startLen; rw [if_neg (by omega), if_neg (by omega), if_neg (by omega), if_neg (by omega), if_pos (by omega)]; rfl
    · simp only [List.mem_cons, List.not_mem_nil, or_false, isContinuation_iff]; rintro _ (rfl | rfl | rfl) <;> omega

theorem enc_snoc_length (t : Text) (ch : Char) : (enc (t ++ [ch])).length = (enc t).length + (String.utf8EncodeChar ch).length := by
  rw [Verif.enc_append, List.length_append, Verif.enc_cons]
  show _ + (String.utf8EncodeChar ch ++ []).length = _
  rw [List.append_nil]

theorem startLen_cont {b : UInt8} (h : isContinuation b = true) : startLen b = none := by
  rw [isContinuation_iff] at h
  unfold startLen
  rw [if_neg (by omega), if_pos (by omega)]

theorem encChar_length (ch : Char) : 1 ≤ (String.utf8EncodeChar ch).length ∧ (String.utf8EncodeChar ch).length ≤ 4 := by
  obtain ⟨b, r, h1, _, _, h2⟩ := encChar_cases ch
  rw [h1]; simp; omega

/-- what the loop of `write_impl` finds out about a byte -/
theorem byte_cases (b : UInt8) (c : Core) : (startLen b = some 1 ∧ is1byte b = true) ∨
    (is1byte b = false ∧
      ((∃ k, startLen b = some k ∧ 2 ≤ k ∧ k ≤ 4 ∧ Emits (expectedBytesCount b) c [] (some k) c) ∨
       (isContinuation b = true ∧ Emits (expectedBytesCount b) c [] none c) ∨
       (startLen b = none ∧ isContinuation b = false ∧ Errs (expectedBytesCount b) c [] .invalidUtf8 c))) := by
  unfold startLen expectedBytesCount
  have e1 := is1byte_iff b
  have e2 := is2byteStart_iff b
  have e3 := is3byteStart_iff b
  have e4 := is4byteStart_iff b
  have e5 := isContinuation_iff b
  by_cases h1 : b.toNat < 0x80
  · exact .inl ⟨by rw [if_pos h1], e1.2 h1⟩
  have f1 : is1byte b = false := by rw [← Bool.not_eq_true, e1]; exact h1
  refine .inr ⟨f1, ?_⟩
  rw [if_neg h1]
  by_cases h2 : b.toNat < 0xC0
  · refine .inr (.inl ⟨e5.2 (by omega), ?_⟩)
    rw [if_neg (by rw [e2]; omega), if_neg (by rw [e3]; omega), if_neg (by rw [e4]; omega), if_pos (e5.2 (by omega))]
    exact emits_pure
  rw [if_neg h2]
  by_cases h3 : b.toNat < 0xE0
  · exact .inl ⟨2, by rw [if_pos h3], by omega, by omega, by rw [if_pos (e2.2 (by omega))]; exact emits_pure⟩
  rw [if_neg h3]
  by_cases h4 : b.toNat < 0xF0
  · exact .inl ⟨3, by rw [if_pos h4], by omega, by omega, by rw [if_neg (by rw [e2]; omega), if_pos (e3.2 (by omega))]; exact emits_pure⟩
  rw [if_neg h4]
  by_cases h5 : b.toNat < 0xF8
  · exact .inl ⟨4, by rw [if_pos h5], by omega, by omega, by
      rw [if_neg (by rw [e2]; omega), if_neg (by rw [e3]; omega), if_pos (e4.2 (by omega))]; exact emits_pure⟩
  rw [if_neg h5]
  have f5 : isContinuation b = false := by rw [← Bool.not_eq_true, e5]; omega
  refine .inr (.inr ⟨rfl, f5, ?_⟩)
  rw [if_neg (by rw [e2]; omega), if_neg (by rw [e3]; omega), if_neg (by rw [e4]; omega), if_neg (by rw [f5]; exact Bool.false_ne_true)]
  exact errs_fail

/-! ## State -/

/-- the string value writer has not failed, and `pend` is incomplete data -/
structure SvInv (c : Core) (pend : Bytes) : Prop where
  error : c.sv.error = none
  buf : c.sv.utf8Buf.length = 4
  pos : c.sv.utf8Pos = pend.length
  data : c.sv.utf8Buf.take pend.length = pend
  start : pend = [] ∨ ∃ b r, pend = b :: r ∧ startLen b = some c.sv.utf8ExpectedLen ∧ pend.length < c.sv.utf8ExpectedLen ∧ c.sv.utf8ExpectedLen ≤ 4

theorem SvInv.new (c : Core) : SvInv { c with stringWriterActive := true, sv := .new } [] :=
  ⟨rfl, rfl, rfl, rfl, .inl rfl⟩

/-- only the string value writer changed -/
def Same (c c' : Core) : Prop := c' = { c with sv := c'.sv }

theorem Same.refl (c : Core) : Same c c := rfl
theorem Same.trans {a b c : Core} (h1 : Same a b) (h2 : Same b c) : Same a c := by
  unfold Same at *
  rw [h1] at h2
  exact h2
theorem Same.settings {a b : Core} (h : Same a b) : b.settings = a.settings := by rw [h]

/-- position in text: between two characters, or within a character which is not at the end -/
def Place (sp len i : Nat) (T : Text) : Prop :=
  i < sp ∨ (∃ t1 t2, T = t1 ++ t2 ∧ sp + (enc t1).length = i) ∨
    ∃ t1 ch t2, T = t1 ++ ch :: t2 ∧ sp + (enc t1).length < i ∧ i < sp + (enc t1).length + (String.utf8EncodeChar ch).length ∧
      sp + (enc t1).length + (String.utf8EncodeChar ch).length ≤ len

theorem byteAt {buf rest X Y : Bytes} {sp i : Nat} {b : UInt8} (hi : i < buf.length) (h : buf.drop sp ++ rest = X ++ Y) (h1 : sp + X.length ≤ i)
    (hb : buf[i] = b) : Y[i - (sp + X.length)]? = some b := by
  have e1 : (X ++ Y)[i - sp]? = Y[i - sp - X.length]? := List.getElem?_append_right (by omega)
  rw [Nat.sub_add_eq, ← e1, ← h, List.getElem?_append_left (by simp; omega), List.getElem?_drop]
  have : sp + (i - sp) = i := by omega
  rw [this, List.getElem?_eq_getElem hi, hb]

/-- a byte at a place within a text: the first byte of a character, or a continuation byte -/
theorem place_byte {buf rest : Bytes} {sp i : Nat} {T : Text} (hi : i < buf.length) (hT : buf.drop sp ++ rest = enc T)
    (hc : i < sp → isContinuation buf[i] = true) (hp : Place sp buf.length i T) :
    (isContinuation buf[i] = true ∧ (i + 1 ≤ buf.length → Place sp buf.length (i + 1) T)) ∨
    ∃ t1 ch t2, T = t1 ++ ch :: t2 ∧ sp + (enc t1).length = i ∧ startLen buf[i] = some (String.utf8EncodeChar ch).length := by
  rcases hp with hp | ⟨t1, t2, rfl, h⟩ | ⟨t1, ch, t2, rfl, h1, h2, h3⟩
  · refine .inl ⟨hc hp, fun _ => ?_⟩
    by_cases he : i + 1 = sp
    · exact .inr (.inl ⟨[], T, rfl, by simp [enc]; omega⟩)
    · exact .inl (by omega)
  · right
    rw [Verif.enc_append] at hT
    have hb := byteAt hi hT (by omega) rfl
    rw [h, Nat.sub_self] at hb
    cases t2 with
    | nil => cases hb
    | cons ch t2 =>
      obtain ⟨b, r, e1, e2, _⟩ := encChar_cases ch
      rw [Verif.enc_cons, e1] at hb
      injection hb with hb
      exact ⟨t1, ch, t2, rfl, h, by rw [← hb, e2, e1]; rfl⟩
  · left
    rw [Verif.enc_append, Verif.enc_cons] at hT
    have hb := byteAt hi hT (by omega) rfl
    obtain ⟨b, r, e1, e2, e3, _⟩ := encChar_cases ch
    rw [List.getElem?_append_left (by omega), e1] at hb
    have hpos : i - (sp + (enc t1).length) = i - (sp + (enc t1).length) - 1 + 1 := by omega
    rw [hpos, List.getElem?_cons_succ] at hb
    refine ⟨e3 _ (List.mem_of_getElem? hb), fun _ => ?_⟩
    by_cases he : i + 1 = sp + (enc t1).length + (String.utf8EncodeChar ch).length
    · refine .inr (.inl ⟨t1 ++ [ch], t2, by simp, ?_⟩)
      rw [enc_snoc_length]; omega
    · exact .inr (.inr ⟨t1, ch, t2, rfl, by omega, by omega, h3⟩)

theorem fromUtf8_cases (bs : Bytes) (c : Core) : (∃ t, bs = enc t ∧ Emits (fromUtf8 bs) c [] t c) ∨ ((¬ ∃ t, bs = enc t) ∧ Errs (fromUtf8 bs) c [] .invalidUtf8 c) := by
  unfold fromUtf8
  cases h : decodeUtf8 bs with
  | some t => exact .inl ⟨t, enc_of_decodeUtf8 h, emits_pure⟩
  | none =>
    refine .inr ⟨?_, errs_fail⟩
    rintro ⟨t, rfl⟩
    rw [decodeUtf8_enc] at h
    cases h

theorem take_eq_enc {D rest : Bytes} {t1 t2 : Text} {n : Nat} (h : D ++ rest = enc (t1 ++ t2)) (hn : (enc t1).length = n) (hl : n ≤ D.length) : D.take n = enc t1 := by
  rw [Verif.enc_append] at h
  have := congrArg (List.take n) h
  rw [List.take_append_of_le_length hl, List.take_left' hn] at this
  exact this

/-- the loop of `write_impl` and what is behind it -/
theorem writeImplLoop_emits {buf : Bytes} {sp : Nat} (hsp : sp ≤ buf.length) (c : Core) (fuel i : Nat) (hf : buf.length - i < fuel) (hi : i ≤ buf.length)
    (hcont : ∀ j (hj : j < buf.length), i ≤ j → j < sp → isContinuation buf[j] = true) (hb : c.sv.utf8Buf.length = 4) (he : c.sv.error = none) :
    (∃ t pend c', Emits (writeImplLoop buf sp fuel i) c (strLit c.settings t).body buf.length c' ∧ buf.drop sp = enc t ++ pend ∧ Same c c' ∧
      ((pend = [] ∧ c' = c) ∨ (pend ≠ [] ∧ SvInv c' pend))) ∨
    (Errs (writeImplLoop buf sp fuel i) c [] .invalidUtf8 c ∧ ∀ rest T, buf.drop sp ++ rest = enc T → ¬ Place sp buf.length i T) := by
  induction fuel generalizing i with
  | zero => omega
  | succ fuel ih =>
    rw [writeImplLoop]
    by_cases hlt : i < buf.length
    · rw [dif_pos hlt]
      dsimp only
      have hc : i < sp → isContinuation buf[i] = true := hcont i hlt (Nat.le_refl _)
      have hrec : ∀ k, 1 ≤ k → i + k ≤ buf.length → _ := fun k h1 h2 => ih (i + k) (by omega) h2 fun j hj h3 h4 => hcont j hj (by omega) h4
      rcases byte_cases buf[i] c with ⟨h1, h2⟩ | ⟨h1, ⟨k, h2, h3, h4, h5⟩ | ⟨h2, h3⟩ | ⟨h2, h3, h4⟩⟩
      · -- single byte character
        rw [if_pos h2]
        rcases hrec 1 (Nat.le_refl _) hlt with h | ⟨h, hp⟩
        · exact .inl h
        · refine .inr ⟨h, fun rest T hT hpl => ?_⟩
          rcases place_byte hlt hT hc hpl with ⟨g, _⟩ | ⟨t1, ch, t2, rfl, g1, g2⟩
          · rw [startLen_cont g] at h1; cases h1
          · rw [h1] at g2
            injection g2 with g2
            refine hp rest _ hT (.inr (.inl ⟨t1 ++ [ch], t2, by simp, ?_⟩))
            rw [enc_snoc_length]; omega
      · -- start of a multi-byte character
        rw [if_neg (by rw [h1]; exact Bool.false_ne_true)]
        have hspi : sp ≤ i := by
          by_cases g : i < sp
          · rw [startLen_cont (hc g)] at h2; cases h2
          · omega
        by_cases hrem : buf.length - i < k
        · rcases fromUtf8_cases ((buf.take i).drop sp) c with ⟨t, e1, e2⟩ | ⟨e1, e2⟩
          · left
            have e3 : buf.drop sp = enc t ++ buf.drop i := by
              conv => lhs; rw [← List.take_append_drop i buf, List.drop_append_of_le_length (by simp; omega)]
              rw [e1]
            refine ⟨t, buf.drop i, { c with sv := { c.sv with utf8ExpectedLen := k, utf8Pos := buf.length - i, utf8Buf := overwrite c.sv.utf8Buf 0 (buf.drop i) } },
              h5.seq ?_, e3, rfl, .inr ⟨?_, he, ?_, ?_, ?_, ?_⟩⟩
            · dsimp only
              rw [if_pos hrem]
              refine (emits_slice hspi (by omega)).seq (e2.seq ((piece_emits t c).last (emits_modify.seq ?_)))
              refine Emits.seq (a := ()) emits_modify ?_
              refine Emits.seq (a := ()) (s' := _) ?_ emits_pure
              unfold setUtf8Buf
              refine emits_get.seq ?_
              rw [if_pos (by simp; omega)]
              exact emits_modify
            · intro h
              have := congrArg List.length h
              simp at this; omega
            · show (overwrite c.sv.utf8Buf 0 (buf.drop i)).length = 4
              rw [overwrite_length (by simp; omega), hb]
            · simp
            · show (overwrite c.sv.utf8Buf 0 (buf.drop i)).take (buf.drop i).length = buf.drop i
              have := overwrite_take (buf := c.sv.utf8Buf) (bs := buf.drop i) (pos := 0) (by simp; omega)
              rw [Nat.zero_add] at this
              rw [this]; rfl
            · refine .inr ⟨buf[i], buf.drop (i + 1), (List.drop_eq_getElem_cons hlt), h2, ?_, h4⟩
              simp only [List.length_drop]; exact hrem
          · refine .inr ⟨h5.seq_err ?_, fun rest T hT hpl => ?_⟩
            · dsimp only
              rw [if_pos hrem]
              exact (emits_slice hspi (by omega)).seq_err e2.bind
            · rcases place_byte hlt hT hc hpl with ⟨g, _⟩ | ⟨t1, ch, t2, rfl, g1, g2⟩
              · rw [startLen_cont g] at h2; cases h2
              · refine e1 ⟨t1, ?_⟩
                rw [List.drop_take]
                exact take_eq_enc hT (by omega) (by simp; omega)
        · have hk : i + (k - 1) + 1 = i + k := by omega
          have h5' : ∀ {bs r c'}, Emits (writeImplLoop buf sp fuel (i + k)) c bs r c' → Emits (expectedBytesCount buf[i] >>= fun o => match o with
              | none => writeImplLoop buf sp fuel (i + 1)
              | some expected => if buf.length - i < expected then do
                    let s ← fromUtf8 (← slice buf sp i)
                    writeStringValuePiece s
                    T.modify fun c => { c with sv := { c.sv with utf8ExpectedLen := expected } }
                    setUtf8Pos (buf.length - i)
                    setUtf8Buf 0 (buf.drop i)
                    pure buf.length
                  else writeImplLoop buf sp fuel (i + (expected - 1) + 1)) c bs r c' := by
            intro bs r c' h
            refine h5.seq ?_
            dsimp only
            rw [if_neg hrem, hk]
            exact h
          rcases hrec k (by omega) (by omega) with ⟨t, pend, c', g1, g2⟩ | ⟨g1, g2⟩
          · exact .inl ⟨t, pend, c', h5' g1, g2⟩
          · refine .inr ⟨h5.seq_err ?_, fun rest T hT hpl => ?_⟩
            · dsimp only
              rw [if_neg hrem, hk]
              exact g1
            · rcases place_byte hlt hT hc hpl with ⟨g, _⟩ | ⟨t1, ch, t2, rfl, f1, f2⟩
              · rw [startLen_cont g] at h2; cases h2
              · rw [h2] at f2
                injection f2 with f2
                refine g2 rest _ hT (.inr (.inl ⟨t1 ++ [ch], t2, by simp, ?_⟩))
                rw [enc_snoc_length]; omega
      · -- continuation
        rw [if_neg (by rw [h1]; exact Bool.false_ne_true)]
        rcases hrec 1 (Nat.le_refl _) hlt with ⟨t, pend, c', g1, g2⟩ | ⟨h, hp⟩
        · exact .inl ⟨t, pend, c', h3.seq g1, g2⟩
        · refine .inr ⟨h3.seq_err h, fun rest T hT hpl => ?_⟩
          rcases place_byte hlt hT hc hpl with ⟨_, g⟩ | ⟨t1, ch, t2, rfl, g1, g2⟩
          · exact hp rest T hT (g hlt)
          · rw [startLen_cont h2] at g2; cases g2
      · -- not a UTF-8 byte
        rw [if_neg (by rw [h1]; exact Bool.false_ne_true)]
        refine .inr ⟨h4.bind, fun rest T hT hpl => ?_⟩
        rcases place_byte hlt hT hc hpl with ⟨g, _⟩ | ⟨t1, ch, t2, rfl, g1, g2⟩
        · rw [g] at h3; cases h3
        · rw [h2] at g2; cases g2
    · rw [dif_neg hlt]
      have hii : i = buf.length := by omega
      have hsl := emits_slice (c := c) hsp (Nat.le_refl _)
      rw [List.take_length] at hsl
      rcases fromUtf8_cases (buf.drop sp) c with ⟨t, e1, e2⟩ | ⟨e1, e2⟩
      · refine .inl ⟨t, [], c, hsl.seq (e2.seq ((piece_emits t c).last emits_pure)), by rw [List.append_nil]; exact e1, rfl, .inl ⟨rfl, rfl⟩⟩
      · refine .inr ⟨hsl.seq_err e2.bind, fun rest T hT hpl => ?_⟩
        rcases hpl with h | ⟨t1, t2, rfl, h⟩ | ⟨t1, ch, t2, rfl, h1, h2, h3⟩
        · omega
        · refine e1 ⟨t1, ?_⟩
          have := take_eq_enc hT (n := buf.length - sp) (by omega) (by simp)
          rwa [List.take_of_length_le (by simp)] at this
        · omega


theorem decodeUtf8Char_cases {bs : Bytes} {b : UInt8} {r : Bytes} (c : Core) (h : bs = b :: r) (hs : startLen b = some bs.length) :
    (∃ ch, bs = String.utf8EncodeChar ch ∧ Emits (decodeUtf8Char bs) c [] [ch] c) ∨
    ((¬ ∃ ch, bs = String.utf8EncodeChar ch) ∧ Errs (decodeUtf8Char bs) c [] .invalidUtf8 c) := by
  unfold decodeUtf8Char
  cases hd : decodeUtf8 bs with
  | none =>
    refine .inr ⟨?_, errs_fail⟩
    rintro ⟨ch, rfl⟩
    have := decodeUtf8_enc [ch]
    rw [Verif.enc_cons] at this
    rw [show String.utf8EncodeChar ch ++ enc [] = String.utf8EncodeChar ch from List.append_nil _, hd] at this
    cases this
  | some t =>
    have he := enc_of_decodeUtf8 hd
    cases t with
    | nil => rw [h] at he; cases he
    | cons ch t =>
      obtain ⟨b', r', e1, e2, _⟩ := encChar_cases ch
      rw [Verif.enc_cons] at he
      have hb : b = b' := by rw [h, e1] at he; injection he
      rw [hb, e2] at hs
      injection hs with hs
      have hl := congrArg List.length he
      rw [List.length_append, e1, ← hs] at hl
      have ht : enc t = [] := List.eq_nil_of_length_eq_zero (by simp at hl ⊢; omega)
      have ht' : t = [] := by
        cases t with
        | nil => rfl
        | cons x t => rw [Verif.enc_cons] at ht; exact absurd (List.append_eq_nil_iff.1 ht).1 (encodeChar_ne_nil x)
      subst ht'
      refine .inl ⟨ch, by rw [he]; simp [enc], ?_⟩
      dsimp only
      rw [if_pos (by rfl)]
      exact emits_pure

/-- completing a character which has been started by a previous call -/
theorem completeChar_emits {c : Core} {pend : Bytes} (h : SvInv c pend) (buf : Bytes) :
    (∃ t pend' c' k, Emits (completeChar buf) c (strLit c.settings t).body k c' ∧ k ≤ buf.length ∧ pend ++ buf.take k = enc t ++ pend' ∧ Same c c' ∧ SvInv c' pend' ∧
      (pend' ≠ [] → k = buf.length ∧ k < 4) ∧ ((pend = [] ∧ k = 0) ∨ t = [] ∨ ∃ ch b r, enc t = b :: r ∧ t = [ch] ∧ buf.take k <:+ r)) ∨
    (∃ c', Errs (completeChar buf) c [] .invalidUtf8 c' ∧ Same c c' ∧ ¬ ∃ rest T, pend ++ buf ++ rest = enc T) := by
  obtain ⟨h1, h2, h3, h4, h5⟩ := h
  unfold completeChar
  rcases h5 with rfl | ⟨b, r, hp, hs, hl, h6⟩
  · refine .inl ⟨[], [], c, 0, emits_get.seq ?_, Nat.zero_le _, by simp [enc], rfl, ⟨h1, h2, h3, h4, .inl rfl⟩, fun h => absurd rfl h, .inl ⟨rfl, rfl⟩⟩
    rw [if_neg (by rw [h3]; simp)]
    exact emits_pure
  · have hpos : 0 < pend.length := by rw [hp]; simp
    generalize hk : min (c.sv.utf8ExpectedLen - c.sv.utf8Pos) buf.length = k
    have hkl : (buf.take k).length = k := by simp; omega
    have hfit : c.sv.utf8Pos + (buf.take k).length ≤ c.sv.utf8Buf.length := by omega
    have ht := overwrite_take hfit
    have hol := overwrite_length hfit
    rw [hkl, h3, h4] at ht
    rw [h3, h2] at hol
    let c1 : Core := { c with sv := { c.sv with utf8Buf := overwrite c.sv.utf8Buf c.sv.utf8Pos (buf.take k), utf8Pos := c.sv.utf8Pos + k } }
    have hset : Emits (setUtf8Buf c.sv.utf8Pos (buf.take k)) c [] () { c with sv := { c.sv with utf8Buf := overwrite c.sv.utf8Buf c.sv.utf8Pos (buf.take k) } } := by
      unfold setUtf8Buf
      refine emits_get.seq ?_
      rw [if_pos hfit]
      exact emits_modify
    by_cases hfull : c.sv.utf8ExpectedLen ≤ c.sv.utf8Pos + k
    · have hke : pend.length + k = c.sv.utf8ExpectedLen := by omega
      let c2 : Core := { c1 with sv := { c1.sv with utf8Pos := 0 } }
      have hsl : Emits (slice c2.sv.utf8Buf 0 c2.sv.utf8ExpectedLen) c2 [] (pend ++ buf.take k) c2 := by
        have := emits_slice (c := c2) (bytes := c2.sv.utf8Buf) (Nat.zero_le c2.sv.utf8ExpectedLen) (by
          show c.sv.utf8ExpectedLen ≤ (overwrite c.sv.utf8Buf c.sv.utf8Pos (buf.take k)).length
          rw [h3, hol]; exact h6)
        rw [List.drop_zero] at this
        have e : c2.sv.utf8Buf.take c2.sv.utf8ExpectedLen = pend ++ buf.take k := by
          show (overwrite c.sv.utf8Buf c.sv.utf8Pos (buf.take k)).take c.sv.utf8ExpectedLen = _
          rw [h3, ← hke]; exact ht
        rw [e] at this
        exact this
      rcases decodeUtf8Char_cases c2 (bs := pend ++ buf.take k) (b := b) (r := r ++ buf.take k) (by rw [hp]; rfl) (by rw [hs, ← hke]; simp; omega) with ⟨ch, e1, e2⟩ | ⟨e1, e2⟩
      · refine .inl ⟨[ch], [], c2, k, emits_get.seq ?_, by omega, ?_, rfl, ?_, fun h => absurd rfl h, .inr (.inr ⟨ch, b, r ++ buf.take k, ?_, rfl, List.suffix_append _ _⟩)⟩
        · rw [if_pos (by omega)]
          refine (emits_csub (by omega)).seq ?_
          dsimp only
          rw [hk]
          refine hset.seq (Emits.seq (a := ()) (s' := c1) emits_modify ?_)
          rw [if_pos hfull]
          refine Emits.seq (a := ()) (s' := c2) emits_modify (emits_get.seq (hsl.seq (e2.seq ?_)))
          exact (piece_emits [ch] c2).last emits_pure
        · rw [e1]; simp [enc]
        · refine ⟨h1, ?_, rfl, rfl, .inl rfl⟩
          show (overwrite c.sv.utf8Buf c.sv.utf8Pos (buf.take k)).length = 4
          rw [h3]; exact hol
        · have : enc [ch] = pend ++ buf.take k := by rw [e1]; simp [enc]
          rw [this, hp]; rfl
      · refine .inr ⟨c2, emits_get.seq_err ?_, rfl, ?_⟩
        · rw [if_pos (by omega)]
          refine (emits_csub (by omega)).seq_err ?_
          dsimp only
          rw [hk]
          refine hset.seq_err (Emits.seq_err (a := ()) (s' := c1) emits_modify ?_)
          rw [if_pos hfull]
          exact Emits.seq_err (a := ()) (s' := c2) emits_modify (emits_get.seq_err (hsl.seq_err e2.bind))
        · rintro ⟨rest, T, hT⟩
          cases T with
          | nil => rw [hp] at hT; cases hT
          | cons ch T =>
            obtain ⟨b', r', f1, f2, _⟩ := encChar_cases ch
            rw [Verif.enc_cons] at hT
            have hb : b = b' := by rw [hp, f1] at hT; injection hT
            rw [← hb, hs] at f2
            injection f2 with f2
            refine e1 ⟨ch, ?_⟩
            have hlen : (String.utf8EncodeChar ch).length = pend.length + k := by rw [f1]; simp; omega
            have := congrArg (List.take (pend.length + k)) hT
            rw [List.take_left' hlen, List.append_assoc, List.take_append, List.take_of_length_le (by omega)] at this
            rw [← this, Nat.add_sub_cancel_left, List.take_append_of_le_length (by omega)]
    · have hkb : k = buf.length := by omega
      refine .inl ⟨[], pend ++ buf, c1, k, emits_get.seq ?_, by omega, by rw [hkb, List.take_length]; simp [enc], rfl, ?_, fun _ => ⟨hkb, by omega⟩, .inr (.inl rfl)⟩
      · rw [if_pos (by omega)]
        refine (emits_csub (by omega)).seq ?_
        dsimp only
        rw [hk]
        refine hset.seq (Emits.seq (a := ()) (s' := c1) emits_modify ?_)
        rw [if_neg hfull]
        exact emits_pure
      · rw [hkb, List.take_length] at ht
        refine ⟨h1, ?_, ?_, ?_, .inr ⟨b, r ++ buf, by rw [hp]; rfl, hs, ?_, h6⟩⟩
        · show (overwrite c.sv.utf8Buf c.sv.utf8Pos (buf.take k)).length = 4
          rw [h3]; exact hol
        · show c.sv.utf8Pos + k = _
          rw [h3, hkb]; simp
        · show (overwrite c.sv.utf8Buf c.sv.utf8Pos (buf.take k)).take (pend ++ buf).length = _
          rw [h3, hkb, List.take_length, List.length_append]; exact ht
        · show (pend ++ buf).length < c.sv.utf8ExpectedLen
          rw [List.length_append]; omega

theorem enc_split {t T : Text} {X : Bytes} (h : enc t ++ X = enc T) : ∃ T2, T = t ++ T2 ∧ X = enc T2 := by
  induction t generalizing T with
  | nil => exact ⟨T, rfl, h⟩
  | cons ch t ih =>
    rw [Verif.enc_cons, List.append_assoc] at h
    cases T with
    | nil => exact absurd (List.append_eq_nil_iff.1 h).1 (encodeChar_ne_nil ch)
    | cons c2 T =>
      rw [Verif.enc_cons] at h
      obtain ⟨rfl, h'⟩ := encodeChar_inj_append h
      obtain ⟨T2, rfl, h2⟩ := ih h'
      exact ⟨T2, rfl, h2⟩

theorem locate {T : Text} {p : Nat} (h : p < (enc T).length) : ∃ t1 ch t2, T = t1 ++ ch :: t2 ∧ (enc t1).length ≤ p ∧ p < (enc t1).length + (String.utf8EncodeChar ch).length := by
  induction T generalizing p with
  | nil => simp [enc] at h
  | cons ch T ih =>
    rw [Verif.enc_cons, List.length_append] at h
    by_cases hp : p < (String.utf8EncodeChar ch).length
    · exact ⟨[], ch, T, rfl, by simp [enc], by simpa [enc] using hp⟩
    · obtain ⟨t1, c2, t2, rfl, h1, h2⟩ := ih (p := p - (String.utf8EncodeChar ch).length) (by omega)
      refine ⟨ch :: t1, c2, t2, rfl, ?_, ?_⟩ <;> rw [Verif.enc_cons, List.length_append] <;> omega

theorem maxOrOffset_emits {a b : Nat} (c : Core) (h : a ≤ b) : Emits (maxOrOffsetNegative a b maxBytesPerChar) c [] (if b < 4 then a else b - 4) c := by
  unfold maxOrOffsetNegative maxBytesPerChar
  rw [if_neg (by omega)]
  by_cases hb : b < 4
  · rw [if_pos hb, if_pos hb]; exact emits_pure
  · rw [if_neg hb, if_neg hb]
    exact emits_csub (by omega)

/-- `write_impl`: writes the complete characters, and keeps the rest; fails only if the data is not the beginning of UTF-8 data -/
theorem writeImpl_emits {c : Core} {pend : Bytes} (h : SvInv c pend) (buf : Bytes) :
    (∃ t pend' c', Emits (writeImpl buf) c (strLit c.settings t).body buf.length c' ∧ pend ++ buf = enc t ++ pend' ∧ Same c c' ∧ SvInv c' pend') ∨
    (∃ t c', Errs (writeImpl buf) c (strLit c.settings t).body .invalidUtf8 c' ∧ enc t <+: pend ++ buf ∧ Same c c' ∧ ¬ ∃ rest T, pend ++ buf ++ rest = enc T) := by
  unfold writeImpl
  by_cases hb : buf.isEmpty
  · rw [if_pos hb]
    rw [List.isEmpty_iff] at hb
    subst hb
    exact .inl ⟨[], pend, c, emits_pure, by simp [enc], rfl, h⟩
  · rw [if_neg hb]
    rcases completeChar_emits h buf with ⟨t, pend', c', k, e1, hk, e2, e3, e4, e5, e6⟩ | ⟨c', e1, e2, e3⟩
    · have hset := e3.settings
      by_cases hp : pend' = []
      · subst hp
        rw [List.append_nil] at e2
        have hsplit : pend ++ buf = enc t ++ buf.drop k := by
          rw [← e2, List.append_assoc, List.take_append_drop]
        have hcont : ∀ j (hj : j < buf.length), (if buf.length < 4 then k else buf.length - 4) ≤ j → j < k → isContinuation buf[j] = true := by
          intro j hj _ hjk
          rcases e6 with ⟨_, rfl⟩ | rfl | ⟨ch, b, r, f1, rfl, f2⟩
          · omega
          · exfalso
            have := congrArg List.length e2
            rw [List.length_append, List.length_take] at this
            have h0 : (enc ([] : Text)).length = 0 := rfl
            omega
          · obtain ⟨b', r', g1, _, g3, _⟩ := encChar_cases ch
            have hr : r = r' := by
              rw [Verif.enc_cons, g1] at f1
              injection f1 with _ f1
              rw [← f1]; simp [enc]
            refine g3 _ (hr ▸ f2.subset ?_)
            rw [List.mem_take_iff_getElem]
            exact ⟨j, by omega, rfl⟩
        rcases writeImplLoop_emits hk c' (buf.length + 1) (if buf.length < 4 then k else buf.length - 4) (by omega) (by split <;> omega) hcont e4.buf e4.error with
          ⟨t2, p2, c2, g1, g2, g3, g4⟩ | ⟨g1, g2⟩
        · refine .inl ⟨t ++ t2, p2, c2, ?_, ?_, e3.trans g3, ?_⟩
          · rw [body_append]
            refine e1.bind ((maxOrOffset_emits c' hk).seq ?_)
            rw [hset] at g1
            exact g1
          · rw [hsplit, g2, Verif.enc_append, List.append_assoc]
          · rcases g4 with ⟨rfl, rfl⟩ | ⟨_, g4⟩
            · exact e4
            · exact g4
        · refine .inr ⟨t, c', ?_, ?_, e3, ?_⟩
          · have := e1.bind_err (f := fun sp => maxOrOffsetNegative sp _ _ >>= writeImplLoop buf sp _) ((maxOrOffset_emits c' hk).seq_err g1)
            rwa [List.append_nil] at this
          · rw [hsplit]; exact List.prefix_append _ _
          · rintro ⟨rest, T, hT⟩
            rw [hsplit, List.append_assoc] at hT
            obtain ⟨T2, rfl, hT2⟩ := enc_split hT
            refine g2 rest T2 hT2 ?_
            by_cases h4 : buf.length < 4
            · rw [if_pos h4]
              exact .inr (.inl ⟨[], T2, rfl, by simp [enc]⟩)
            · rw [if_neg h4]
              by_cases hlt : buf.length - 4 < k
              · exact .inl hlt
              · obtain ⟨t1, ch, t3, rfl, f1, f2⟩ := locate (T := T2) (p := buf.length - 4 - k) (by rw [← hT2]; simp; omega)
                by_cases hq : (enc t1).length = buf.length - 4 - k
                · exact .inr (.inl ⟨t1, ch :: t3, rfl, by omega⟩)
                · have := encChar_length ch
                  exact .inr (.inr ⟨t1, ch, t3, rfl, by omega, by omega, by omega⟩)
      · obtain ⟨rfl, hk4⟩ := e5 hp
        rw [List.take_length] at e2
        refine .inl ⟨t, pend', c', ?_, e2, e3, e4⟩
        refine e1.last ((maxOrOffset_emits c' hk).seq ?_)
        rw [if_pos hk4, writeImplLoop, dif_neg (Nat.lt_irrefl _)]
        have hsl := emits_slice (c := c') (bytes := buf) (i := buf.length) (Nat.le_refl _) (Nat.le_refl _)
        have hd : (buf.take buf.length).drop buf.length = [] := by simp
        rw [hd] at hsl
        refine hsl.seq ?_
        have : Emits (fromUtf8 []) c' [] [] c' := emits_pure
        exact this.seq ((piece_emits [] c').last emits_pure)
    · exact .inr ⟨[], c', e1.bind, List.nil_prefix, e2, e3⟩

/-! ## Calls -/

theorem track_emits {α : Type} {m : W α} {c c' : Core} {bs : Bytes} {a : α} (he : c.sv.error = none) (h : Emits m c bs a c') :
    Emits (runWithErrorTracking m) c bs a c' := by
  unfold runWithErrorTracking
  rcases checkPreviousError_cases c with ⟨_, h1⟩ | ⟨e, h1, _⟩
  · refine Emits.seq (a := ()) (s' := c) (by unfold Emits; rw [h1]; rfl) ?_
    exact h.attempt.last emits_pure
  · rw [he] at h1; cases h1

theorem track_errs {α : Type} {m : W α} {c c' : Core} {bs : Bytes} {e : WErr} (he : c.sv.error = none) (h : Errs m c bs e c') :
    Errs (runWithErrorTracking m) c bs e { c' with sv := { c'.sv with error := some e } } := by
  unfold runWithErrorTracking
  rcases checkPreviousError_cases c with ⟨_, h1⟩ | ⟨e, h1, _⟩
  · refine Emits.seq_err (a := ()) (s' := c) (by unfold Emits; rw [h1]; rfl) ?_
    have hm : Errs (do T.modify fun c => { c with sv := { c.sv with error := some e } }; T.fail e : W α) c' [] e { c' with sv := { c'.sv with error := some e } } :=
      Emits.seq_err (a := ()) emits_modify errs_fail
    have := h.attempt.bind_err (f := fun r => match r with
      | .ok a => (pure a : W α)
      | .error e => do T.modify fun c => { c with sv := { c.sv with error := some e } }; T.fail e) hm
    rw [List.append_nil] at this
    exact this
  · rw [he] at h1; cases h1

/-- result of a successful call -/
def svOk : SvOp → Nat
  | .write bs => bs.length
  | _ => 0

theorem svOp_emits {c : Core} {pend : Bytes} (h : SvInv c pend) (o : SvOp) :
    (∃ t pend' c', Emits (svOp o) c (strLit c.settings t).body (svOk o) c' ∧ pend ++ SvOp.data o = enc t ++ pend' ∧ Same c c' ∧ SvInv c' pend' ∧
      ∀ u, o = .writeStr u → pend = []) ∨
    (∃ t e c', Errs (svOp o) c (strLit c.settings t).body e c' ∧ enc t <+: pend ++ SvOp.data o ∧ Same c c' ∧ c'.sv.error = some e ∧ (e = .invalidUtf8 ∨ e = .incompleteUtf8) ∧
      ((¬ ∃ rest T, pend ++ SvOp.data o ++ rest = enc T) ∨ ∃ u, o = .writeStr u ∧ pend ≠ [])) := by
  cases o with
  | write bs =>
    rcases writeImpl_emits h bs with ⟨t, p', c', h1, h2, h3, h4⟩ | ⟨t, c', h1, h2, h3, h4⟩
    · exact .inl ⟨t, p', c', track_emits h.error h1, h2, h3, h4, nofun⟩
    · exact .inr ⟨t, _, _, track_errs h.error h1, h2, h3.trans rfl, rfl, .inl rfl, .inl h4⟩
  | writeStr u =>
    by_cases hp : pend = []
    · subst hp
      refine .inl ⟨u, [], c, Emits.last (a := ()) (track_emits h.error (emits_get.seq ?_)) emits_pure, (List.append_nil _).symm, rfl, h, fun _ _ => rfl⟩
      rw [if_neg (by rw [h.pos]; simp)]
      exact piece_emits u c
    · refine .inr ⟨[], _, _, Errs.bind (track_errs h.error (e := .incompleteUtf8) (c' := c) (bs := []) (emits_get.seq_err ?_)), List.nil_prefix, rfl, rfl, .inr rfl, .inr ⟨u, rfl, hp⟩⟩
      rw [if_pos (by rw [h.pos]; exact List.length_pos_iff.2 hp)]
      exact errs_fail
  | flush => exact .inl ⟨[], pend, c, (track_emits h.error emits_flush).last emits_pure, by simp [SvOp.data, enc], rfl, h, nofun⟩

/-- `write_str` is only called between two characters -/
def StrAligned (pend : Bytes) (ops : List SvOp) : Prop := ∀ pre u post, ops = pre ++ .writeStr u :: post → ∃ v, pend ++ svData pre = enc v

theorem pend_not_enc {c : Core} {pend : Bytes} (h : SvInv c pend) {T : Text} (ht : pend = enc T) : pend = [] := by
  rcases h.start with h | ⟨b, r, h1, h2, h3, _⟩
  · exact h
  · exfalso
    cases T with
    | nil => rw [ht] at h1; cases h1
    | cons ch T =>
      obtain ⟨b', r', e1, e2, _⟩ := encChar_cases ch
      rw [Verif.enc_cons, e1] at ht
      have hb : b = b' := by rw [h1] at ht; injection ht
      rw [← hb, h2] at e2
      injection e2 with e2
      have := congrArg List.length ht
      simp at this
      omega

/-- results of calls of which the first `k` are successful -/
def svFailed (ops : List SvOp) (k : Nat) (e : WErr) : List (Except WErr Nat) :=
  (ops.take k).map (fun o => .ok (svOk o)) ++ .error e :: (ops.drop (k + 1)).map fun _ => .error (.previous e)

theorem svOps_emits (ops : List SvOp) {c : Core} {pend : Bytes} (h : SvInv c pend) :
    (∃ t pend' c', Emits (svOps ops) c (strLit c.settings t).body (ops.map fun o => .ok (svOk o)) c' ∧ pend ++ svData ops = enc t ++ pend' ∧ Same c c' ∧ SvInv c' pend' ∧
      StrAligned pend ops) ∨
    (∃ t k e c', k < ops.length ∧ Emits (svOps ops) c (strLit c.settings t).body (svFailed ops k e) c' ∧ enc t <+: pend ++ svData ops ∧ Same c c' ∧ c'.sv.error = some e ∧
      (e = .invalidUtf8 ∨ e = .incompleteUtf8) ∧ ¬ ∃ rest T, pend ++ svData ops ++ rest = enc T ∧ StrAligned pend ops) := by
  induction ops generalizing c pend with
  | nil => exact .inl ⟨[], pend, c, emits_pure, by simp [svData, enc], rfl, h, by intro pre u post h; cases pre <;> cases h⟩
  | cons o ops ih =>
    unfold svOps
    have hd : ∀ ops', svData (o :: ops') = SvOp.data o ++ svData ops' := fun _ => rfl
    rcases svOp_emits h o with ⟨t, p', c', h1, h2, h3, h4, h5⟩ | ⟨t, e, c', h1, h2, h3, h4, h5, h6⟩
    · have hset := h3.settings
      -- alignment of the remaining calls
      have hal : StrAligned pend (o :: ops) ↔ StrAligned p' ops := by
        constructor
        · intro ha pre u post he
          obtain ⟨v, hv⟩ := ha (o :: pre) u post (by rw [he]; rfl)
          rw [hd, ← List.append_assoc, h2, List.append_assoc] at hv
          obtain ⟨T2, _, hT⟩ := enc_split hv
          exact ⟨T2, hT⟩
        · intro ha pre u post he
          cases pre with
          | nil =>
            injection he with he _
            rw [h5 u he]
            exact ⟨[], rfl⟩
          | cons o' pre =>
            injection he with he1 he2
            obtain ⟨v, hv⟩ := ha pre u post he2
            refine ⟨t ++ v, ?_⟩
            rw [← he1, hd, ← List.append_assoc, h2, List.append_assoc, hv, Verif.enc_append]
      rcases ih h4 with ⟨t2, p2, c2, g1, g2, g3, g4, g5⟩ | ⟨t2, k, e, c2, hk, g1, g2, g3, g4, g5, g6⟩
      · refine .inl ⟨t ++ t2, p2, c2, ?_, ?_, h3.trans g3, g4, hal.2 g5⟩
        · rw [body_append]
          rw [hset] at g1
          exact h1.attempt.bind (g1.last emits_pure)
        · rw [hd, ← List.append_assoc, h2, List.append_assoc, g2, Verif.enc_append, List.append_assoc]
      · refine .inr ⟨t ++ t2, k + 1, e, c2, by simpa using hk, ?_, ?_, h3.trans g3, g4, g5, ?_⟩
        · rw [body_append]
          rw [hset] at g1
          exact h1.attempt.bind (g1.last emits_pure)
        · rw [hd, ← List.append_assoc, h2, List.append_assoc, Verif.enc_append]
          exact (List.prefix_append_right_inj _).2 g2
        · rintro ⟨rest, T, hT, ha⟩
          rw [hd, ← List.append_assoc, h2, List.append_assoc, List.append_assoc] at hT
          obtain ⟨T2, _, hT2⟩ := enc_split hT
          exact g6 ⟨rest, T2, by rw [List.append_assoc]; exact hT2, hal.1 ha⟩
    · refine .inr ⟨t, 0, e, c', by simp, ?_, ?_, h3, h4, h5, ?_⟩
      · have := h1.attempt.bind (f := fun r => do let rs ← svOps ops; pure (r :: rs)) (b := svFailed (o :: ops) 0 e) (s'' := c') (bs' := []) (by
          refine Emits.seq (a := ops.map fun _ => .error (.previous e)) (s' := c') ?_ emits_pure
          unfold Emits
          rw [svOps_sticky h4]
          rfl)
        rw [List.append_nil] at this
        exact this
      · rw [hd, ← List.append_assoc]
        exact h2.trans (List.prefix_append _ _)
      · rintro ⟨rest, T, hT, ha⟩
        rcases h6 with h6 | ⟨u, rfl, hp⟩
        · rw [hd] at hT
          exact h6 ⟨svData ops ++ rest, T, by rw [← hT]; simp⟩
        · obtain ⟨v, hv⟩ := ha [] u ops rfl
          rw [show svData [] = [] from rfl, List.append_nil] at hv
          exact hp (pend_not_enc h hv)

theorem svFinish_emits {c : Core} (h : SvInv c []) : Emits svFinishValue c [0x22] () { c with stringWriterActive := false, sv := .new } := by
  unfold svFinishValue
  rcases checkPreviousError_cases c with ⟨_, h1⟩ | ⟨e, h1, _⟩
  · refine Emits.seq (a := ()) (s' := c) (by unfold Emits; rw [h1]; rfl) (emits_get.seq ?_)
    rw [if_neg (by rw [h.pos]; simp)]
    exact emits_writeBytes.last emits_modify
  · rw [h.error] at h1; cases h1

theorem svFinish_incomplete {c : Core} {pend : Bytes} (h : SvInv c pend) (hp : pend ≠ []) : Errs svFinishValue c [] .incompleteUtf8 c := by
  unfold svFinishValue
  rcases checkPreviousError_cases c with ⟨_, h1⟩ | ⟨e, h1, _⟩
  · refine Emits.seq_err (a := ()) (s' := c) (by unfold Emits; rw [h1]; rfl) (emits_get.seq_err ?_)
    rw [if_pos (by rw [h.pos]; exact List.length_pos_iff.2 hp)]
    exact errs_fail
  · rw [h.error] at h1; cases h1

end Verif.Writer

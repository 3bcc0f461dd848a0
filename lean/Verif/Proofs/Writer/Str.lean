import Verif.Proofs.Writer.Emit
import Verif.Proofs.Writer.Spec
/-!
# Writing strings
-/

namespace Verif.Writer
open Json Utf8
open WSpec hiding Frame

theorem emits_slice {bytes : Bytes} {i j : Nat} {c : Core} (h1 : i ≤ j) (h2 : j ≤ bytes.length) :
    Emits (slice bytes i j) c [] ((bytes.take j).drop i) c := by
  unfold slice
  rw [if_pos ⟨h1, h2⟩]
  exact emits_pure

theorem emits_csub {i j : Nat} {c : Core} (h : j ≤ i) : Emits (csub i j) c [] (i - j) c := by
  unfold csub
  rw [if_pos h]
  exact emits_pure

theorem shouldEscape_iff (st : WSettings) (c : Char) : shouldEscape st c = true ↔ mustEscape st c := by
  unfold shouldEscape mustEscape isControl
  simp only [Bool.or_eq_true, Bool.and_eq_true, beq_iff_eq, decide_eq_true_eq, Bool.not_eq_true', decide_eq_false_iff_not, Nat.not_lt]
  constructor
  · rintro (((h | h) | h) | h)
    · rcases h with h | h
      · exact .inl h
      · exact .inr (.inl h)
    · exact .inr (.inr (.inl (by omega)))
    · exact .inr (.inr (.inr (.inl h)))
    · exact .inr (.inr (.inr (.inr h)))
  · rintro (h | h | h | h | h)
    · exact .inl (.inl (.inl (.inl h)))
    · exact .inl (.inl (.inl (.inr h)))
    · exact .inl (.inl (.inr (by omega)))
    · exact .inl (.inr h)
    · exact .inr h

theorem toHex_emits {i : Nat} (h : i < 16) (c : Core) : Emits (toHex i) c [] (hexDigit i) c := by
  unfold toHex hexDigit
  by_cases h9 : i ≤ 9
  · rw [if_pos h9, if_pos (by omega)]; exact emits_pure
  · rw [if_neg h9, if_pos (by omega), if_neg (by omega)]
    have : 0x41 + (i - 10) = 0x37 + i := by omega
    rw [this]
    exact emits_pure

theorem getUnicodeEscape_emits {n : Nat} (h : n < 0x10000) (c : Core) : Emits (getUnicodeEscape n) c [] (hex4 n).bytes c := by
  unfold getUnicodeEscape
  have hm : ∀ x : Nat, x &&& 15 = x % 16 := fun x => Nat.and_two_pow_sub_one_eq_mod x 4
  have hs : ∀ x k : Nat, x >>> k = x / 2 ^ k := fun x k => Nat.shiftRight_eq_div_pow x k
  rw [if_neg (by omega), hm, hm, hm, hm, hs, hs, hs]
  have hl : ∀ x : Nat, x % 16 < 16 := fun x => Nat.mod_lt _ (by decide)
  exact (toHex_emits (hl _) c).seq ((toHex_emits (hl _) c).seq ((toHex_emits (hl _) c).seq ((toHex_emits (hl _) c).seq emits_pure)))

theorem escape_emits {ch : Char} (h : ch ≠ '/') (c : Core) : Emits (writeEscapedChar ch) c (escape ch).bytes () c := by
  unfold writeEscapedChar escape twoCharEscape
  simp only [beq_iff_eq]
  by_cases h1 : ch = '"'
  · rw [if_pos h1, if_pos h1]; exact emits_writeBytes
  rw [if_neg h1, if_neg h1]
  by_cases h2 : ch = '\\'
  · rw [if_pos h2, if_pos h2]; exact emits_writeBytes
  rw [if_neg h2, if_neg h2, if_neg h]
  by_cases h3 : ch.toNat = 8
  · rw [if_pos h3, if_pos h3]; exact emits_writeBytes
  rw [if_neg h3, if_neg h3]
  by_cases h4 : ch.toNat = 12
  · rw [if_pos h4, if_pos h4]; exact emits_writeBytes
  rw [if_neg h4, if_neg h4]
  by_cases h5 : ch = '\n'
  · rw [if_pos h5, if_pos h5]; exact emits_writeBytes
  rw [if_neg h5, if_neg h5]
  by_cases h6 : ch = '\r'
  · rw [if_pos h6, if_pos h6]; exact emits_writeBytes
  rw [if_neg h6, if_neg h6]
  by_cases h7 : ch = '\t'
  · rw [if_pos h7, if_pos h7]; exact emits_writeBytes
  rw [if_neg h7, if_neg h7]
  dsimp only
  by_cases h8 : ch.toNat ≤ 0xFFFF
  · rw [if_pos h8, if_pos (by omega)]
    exact emits_writeBytes.bind ((getUnicodeEscape_emits (by omega) c).seq emits_writeBytes)
  · rw [if_neg h8, if_neg (by omega)]
    have hv := char_val_lt ch
    have hd : (ch.toNat - 0x10000) / 0x400 < 0x400 := by omega
    have e1 : ((ch.toNat - 0x10000) >>> 10) + 0xD800 = 0xD800 + (ch.toNat - 0x10000) / 0x400 := by
      rw [Nat.shiftRight_eq_div_pow]; omega
    have e2 : ((ch.toNat - 0x10000) &&& ((1 <<< 10) - 1)) + 0xDC00 = 0xDC00 + (ch.toNat - 0x10000) % 0x400 := by
      have : (ch.toNat - 0x10000) &&& ((1 <<< 10) - 1) = (ch.toNat - 0x10000) % 2 ^ 10 := Nat.and_two_pow_sub_one_eq_mod _ 10
      rw [this]; omega
    refine (emits_csub (by omega)).seq ?_
    rw [e1, e2]
    refine Emits.cast (emits_writeBytes.bind ((getUnicodeEscape_emits (by omega) c).seq (emits_writeBytes.bind (emits_writeBytes.bind
      ((getUnicodeEscape_emits (by omega) c).seq emits_writeBytes))))) ?_
    simp [StrItem.bytes]

theorem slash_not_escaped (st : WSettings) : ¬ mustEscape st '/' := by
  unfold mustEscape
  have : ('/' : Char).toNat = 47 := rfl
  rw [this]
  rintro (h | h | h | h | h)
  · cases h
  · cases h
  · omega
  · omega
  · omega

theorem item_escaped {st : WSettings} {c : Char} (h : mustEscape st c) : item st c = escape c := if_pos h
theorem item_plain {st : WSettings} {c : Char} (h : ¬ mustEscape st c) : item st c = .char c := if_neg h

theorem body_plain {st : WSettings} {t : Text} (h : ∀ c ∈ t, ¬ mustEscape st c) : (strLit st t).body = enc t := by
  induction t with
  | nil => rfl
  | cons c t ih =>
    rw [body_cons, ih fun x hx => h x (List.mem_cons_of_mem _ hx), item_plain (h c (List.mem_cons_self ..)), Verif.enc_cons]
    rfl

theorem pieceLoop_emits {c : Core} {bytes : Bytes} (done run cs : Text) (hb : enc (done ++ run ++ cs) = bytes) (hr : ∀ x ∈ run, ¬ mustEscape c.settings x) :
    ∃ bs next, Emits (pieceLoop bytes cs (enc (done ++ run)).length (enc done).length) c bs next c ∧ next ≤ bytes.length ∧
      bs ++ bytes.drop next = (strLit c.settings (run ++ cs)).body := by
  induction cs generalizing done run with
  | nil =>
    refine ⟨[], (enc done).length, emits_pure, ?_, ?_⟩
    · rw [← hb]; simp [Verif.enc_append]
    · rw [List.append_nil, body_plain hr, ← hb, List.append_nil, Verif.enc_append, List.nil_append]
      exact List.drop_left
  | cons ch cs ih =>
    unfold pieceLoop
    have hstep : enc (done ++ run ++ ch :: cs) = enc (done ++ run) ++ (String.utf8EncodeChar ch ++ enc cs) := by
      rw [Verif.enc_append, Verif.enc_cons]
    by_cases he : mustEscape c.settings ch
    · have he' := (shouldEscape_iff _ _).2 he
      have e1 : (enc (done ++ run ++ [ch])).length = (enc (done ++ run)).length + (String.utf8EncodeChar ch).length := by
        rw [Verif.enc_append, List.length_append]; simp [enc]
      obtain ⟨bs, next, h1, h2, h3⟩ := ih (done ++ run ++ [ch]) [] (by rw [← hb]; simp) (by simp)
      rw [List.append_nil, e1] at h1
      have hs : ch ≠ '/' := by rintro rfl; exact slash_not_escaped _ he
      refine ⟨enc run ++ ((escape ch).bytes ++ bs), next, ?_, h2, ?_⟩
      · refine emits_get.seq ?_
        rw [if_pos he']
        have hle : (enc done).length ≤ (enc (done ++ run)).length := by simp [Verif.enc_append]
        have hle2 : (enc (done ++ run)).length ≤ bytes.length := by rw [← hb, hstep]; simp
        have htake : (bytes.take (enc (done ++ run)).length).drop (enc done).length = enc run := by
          rw [← hb, hstep, List.take_left, Verif.enc_append, List.drop_left]
        have hrest := (escape_emits hs c).bind (f := fun _ => pieceLoop bytes cs _ _) h1
        dsimp only
        by_cases hlt : (enc done).length < (enc (done ++ run)).length
        · rw [if_pos hlt]
          have := emits_slice (c := c) hle hle2
          rw [htake] at this
          exact this.seq (emits_writeBytes.bind hrest)
        · rw [if_neg hlt]
          have : enc run = [] := by
            have : (enc run).length = 0 := by rw [Verif.enc_append, List.length_append] at hlt; omega
            exact List.eq_nil_of_length_eq_zero this
          rw [this]
          exact hrest
      · rw [body_append, body_cons, body_plain hr, item_escaped he, List.append_assoc, List.append_assoc, h3, List.nil_append]
    · have he' : ¬ shouldEscape c.settings ch = true := fun h => he ((shouldEscape_iff _ _).1 h)
      have e1 : (enc (done ++ (run ++ [ch]))).length = (enc (done ++ run)).length + (String.utf8EncodeChar ch).length := by
        rw [← List.append_assoc, Verif.enc_append, List.length_append]; simp [enc]
      obtain ⟨bs, next, h1, h2, h3⟩ := ih done (run ++ [ch]) (by rw [← hb]; simp) (by
        intro x hx
        rcases List.mem_append.1 hx with hx | hx
        · exact hr x hx
        · rw [List.mem_singleton.1 hx]; exact he)
      rw [e1] at h1
      refine ⟨bs, next, emits_get.seq ?_, h2, by rw [h3]; simp⟩
      rw [if_neg he']
      exact h1

/-- `write_string_value_piece` -/
theorem piece_emits (t : Text) (c : Core) : Emits (writeStringValuePiece t) c (strLit c.settings t).body () c := by
  unfold writeStringValuePiece
  obtain ⟨bs, next, h1, h2, h3⟩ := pieceLoop_emits (c := c) (bytes := enc t) [] [] t rfl (by simp)
  refine Emits.cast (h1.bind (bs' := (enc t).drop next) ?_) h3
  by_cases h : next < (enc t).length
  · rw [if_pos h]
    have := emits_slice (c := c) (bytes := enc t) (Nat.le_of_lt h) (Nat.le_refl _)
    rw [List.take_length] at this
    exact this.seq emits_writeBytes
  · rw [if_neg h, List.drop_of_length_le (by omega)]
    exact emits_pure

/-- `write_string_value` -/
theorem string_emits (t : Text) (c : Core) : Emits (writeStringValue t) c (strLit c.settings t).bytes () c := by
  unfold writeStringValue
  exact emits_writeBytes.bind ((piece_emits t c).bind emits_writeBytes)

end Verif.Writer

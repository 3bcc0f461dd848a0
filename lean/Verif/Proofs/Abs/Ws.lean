import Verif.Proofs.Abs.Str
/-! # Whitespace and comments -/

namespace Verif.Abs
open Reader Utf8 Json

/-! ## `skip_to` -/

theorem enc_append (a b : Text) : enc (a ++ b) = enc a ++ enc b := by
  unfold enc; rw [List.flatMap_append]

/-- characters which are skipped: the first byte is not a `stop` byte -/
def Skips (stop : UInt8 → Bool) (c : Char) : Prop :=
  BlockCommentChar c ∧ ∀ b t, String.utf8EncodeChar c = b :: t → stop b = false

/-- where `skip_to` stops -/
def Stops (stop : UInt8 → Bool) (k : Option SyntaxKind) (r : Bytes) : Prop :=
  (r = [] ∧ k = none) ∨ ∃ b t, r = b :: t ∧ stop b = true

@[simp] theorem mvc_rest (s : St) (c : Bool) (bs r : Bytes) : (mvc s c bs r).src.rest = r := rfl
@[simp] theorem mvc_term (s : St) (c : Bool) (bs r : Bytes) : (mvc s c bs r).src.term = s.src.term := rfl

theorem mvc_mvc (s : St) (c d : Bool) (a b r1 r2 : Bytes) (h : d = (posRun (pos s, c) a).2) :
    mvc (mvc s c a r1) d b r2 = mvc s c (a ++ b) r2 := by
  subst h
  unfold mvc
  rw [posRun_append]
  rfl

theorem mvc_false (s : St) (bs r : Bytes) : mvc s false bs r = mv s bs r := rfl

theorem mvc_nil (s : St) (c : Bool) (r : Bytes) : mvc s c [] r = setRest s r := rfl

/-- ASCII byte as first byte of a character -/
theorem char_of_ascii_head {c : Char} {b : UInt8} {t : Bytes} (h : String.utf8EncodeChar c = b :: t) (hb : b.toNat < 0x80) :
    c.toNat = b.toNat ∧ t = [] := by
  have hs := encShape c
  rw [h] at hs
  cases hs with
  | one b0 h1 h2 => exact ⟨h2, rfl⟩
  | two b0 b1 h1 => omega
  | three b0 b1 b2 h1 => omega
  | four b0 b1 b2 b3 h1 => omega

theorem posRun_char_flag (p : Pos × Bool) (c : Char) : (posRun p (String.utf8EncodeChar c)).2 = (c == '\r') := by
  rw [posRun_flag p (encodeChar_ne_nil c)]
  by_cases h : c = '\r'
  · subst h; decide
  · rw [beq_eq_false_iff_ne.2 h, beq_eq_false_iff_ne]
    intro hl
    have hm := List.mem_of_getLast? hl
    by_cases h' : c = '\n'
    · subst h'; revert hm; decide
    · exact (noBreak_char h' h).2 hm

theorem skipToByte_run {s : St} {c : Char} {b : UInt8} {t r : Bytes} (cr : Bool) (h : String.utf8EncodeChar c = b :: t) (hr : s.src.rest = t ++ r) :
    (skipToByte b cr).run s = .ok () (mvc s cr (String.utf8EncodeChar c) r) := by
  unfold skipToByte
  by_cases hb : b.toNat < 0x80
  · obtain ⟨hv, rfl⟩ := char_of_ascii_head h hb
    have hr : s.src.rest = r := hr
    subst hr
    rw [h]
    by_cases h1 : b = 0x0A
    · subst h1
      rw [if_pos (by decide)]
      cases cr <;> rfl
    · rw [if_neg (by simpa using h1)]
      by_cases h2 : b = 0x0D
      · subst h2
        rw [if_pos (by decide)]
        cases cr <;> rfl
      · rw [if_neg (by simpa using h2), if_pos ((is1byte_iff b).2 hb), advance_eq]
        unfold mvc
        rw [posRun_plain _ (plain_cons ⟨hb, h1, h2⟩ plain_nil)]
        rfl
  · have hb' : (b == 0x0A) = false := by rw [beq_eq_false_iff_ne]; rintro rfl; exact hb (by decide)
    have hb2 : (b == 0x0D) = false := by rw [beq_eq_false_iff_ne]; rintro rfl; exact hb (by decide)
    have hc : 0x80 ≤ c.toNat := by
      have hs := encShape c
      rw [h] at hs
      cases hs <;> omega
    rw [hb', hb2]
    rw [if_neg (by decide), if_neg (by decide), if_neg (mt (is1byte_iff b).1 hb),
      M.bind_ok (readUtf8Multibyte_complete isRb_readByte h hc hr), ← h, advance_eq]
    unfold mvc
    rw [posRun_char _ (by rintro rfl; exact absurd hc (by decide)) (by rintro rfl; exact absurd hc (by decide))]
    rfl

theorem blockChar_byte {c : Char} {b : UInt8} {t : Bytes} (h : String.utf8EncodeChar c = b :: t) :
    BlockCommentChar c ↔ ¬ (b < 0x20 ∧ ¬ (b = 0x09 ∨ b = 0x0A ∨ b = 0x0D)) := by
  rw [UInt8.lt_iff_toNat_lt]
  show _ ↔ ¬ (b.toNat < 32 ∧ _)
  by_cases hb : b.toNat < 0x80
  · obtain ⟨hv, rfl⟩ := char_of_ascii_head h hb
    unfold BlockCommentChar LineCommentChar
    have e : ∀ (d : Char) (x : UInt8), d.toNat = x.toNat → (c = d ↔ b = x) := by
      intro d x hd
      constructor
      · rintro rfl; exact byte_ext (hv.symm.trans hd)
      · rintro rfl; exact char_ext (hv.trans hd.symm)
    rw [e '\t' 0x09 rfl, e '\n' 0x0A rfl, e '\r' 0x0D rfl, hv]
    constructor
    · rintro ((h | h) | h | h) ⟨h1, h2⟩
      · omega
      · exact h2 (.inl h)
      · exact h2 (.inr (.inl h))
      · exact h2 (.inr (.inr h))
    · intro h
      by_cases hlt : b.toNat < 32
      · rcases Decidable.not_not.1 (fun hn => h ⟨hlt, hn⟩) with h | h | h
        · exact .inl (.inr h)
        · exact .inr (.inl h)
        · exact .inr (.inr h)
      · exact .inl (.inl (by omega))
  · have hc : 0x80 ≤ c.toNat := by
      have hs := encShape c
      rw [h] at hs
      cases hs <;> omega
    exact ⟨fun _ h => by omega, fun _ => .inl (.inl (by omega))⟩

theorem skipTo_cond (b : UInt8) : ((decide (b < 0x20) && !(b == 0x09 || b == 0x0A || b == 0x0D)) = true) ↔
    (b < 0x20 ∧ ¬ (b = 0x09 ∨ b = 0x0A ∨ b = 0x0D)) := by
  simp [and_assoc]

theorem skipToLoop_succ (stop : UInt8 → Bool) (k : Option SyntaxKind) (f : Nat) (cr : Bool) :
    (skipToLoop stop k (f + 1) cr : R AbsSrc Unit) = (do
      match ← peekByte with
      | none =>
        match k with
        | none => pure ()
        | some kind => syntaxErr kind
      | some byte =>
        if stop byte then pure ()
        else if byte < 0x20 && !(byte == 0x09 || byte == 0x0A || byte == 0x0D) then syntaxErr .notEscapedControlCharacter
        else do
          skipPeekedByte
          skipToByte byte cr
          skipToLoop stop k f (byte == 0x0D)) := rfl

theorem skipToLoop_char {stop : UInt8 → Bool} {k : Option SyntaxKind} {f : Nat} {cr : Bool} {s : St} {c : Char} {r : Bytes}
    (hc : Skips stop c) (hr : s.src.rest = String.utf8EncodeChar c ++ r) :
    (skipToLoop stop k (f + 1) cr).run s = (skipToLoop stop k f (c == '\r')).run (mvc s cr (String.utf8EncodeChar c) r) := by
  obtain ⟨b, t, he⟩ : ∃ b t, String.utf8EncodeChar c = b :: t := List.exists_cons_of_ne_nil (encodeChar_ne_nil c)
  have hr' : s.src.rest = b :: (t ++ r) := by rw [hr, he]; rfl
  rw [skipToLoop_succ, M.bind_ok (peekByte_cons hr')]
  dsimp only
  rw [if_neg (by rw [hc.2 b t he]; decide), if_neg (by rw [skipTo_cond]; exact (blockChar_byte he).1 hc.1),
    M.bind_ok (skipPeekedByte_cons hr'), M.bind_ok (skipToByte_run (s := setRest s (t ++ r)) cr he rfl)]
  have hf : (b == 0x0D) = (c == '\r') := by
    by_cases hb : b.toNat < 0x80
    · obtain ⟨hv, rfl⟩ := char_of_ascii_head he hb
      by_cases h : c = '\r'
      · subst h
        have : b = 0x0D := byte_ext hv.symm
        subst this; rfl
      · rw [beq_eq_false_iff_ne.2 h, beq_eq_false_iff_ne]
        rintro rfl
        exact h (char_ext hv)
    · have h1 : b ≠ 0x0D := by rintro rfl; exact hb (by decide)
      have h2 : c ≠ '\r' := by
        rintro rfl
        have : b = 0x0D := by
          have : String.utf8EncodeChar '\r' = [0x0D] := by decide
          rw [this] at he; cases he; rfl
        exact h1 this
      rw [beq_eq_false_iff_ne.2 h1, beq_eq_false_iff_ne.2 h2]
  rw [hf]
  rfl

theorem skipToLoop_stop {stop : UInt8 → Bool} {k : Option SyntaxKind} {f : Nat} {cr : Bool} {s : St} (ht : s.src.term = none)
    (h : Stops stop k s.src.rest) : (skipToLoop stop k (f + 1) cr).run s = .ok () s := by
  rw [skipToLoop_succ]
  rcases h with ⟨h, rfl⟩ | ⟨b, t, h, hb⟩
  · rw [M.bind_ok (peekByte_nil h ht)]; rfl
  · rw [M.bind_ok (peekByte_cons h)]
    dsimp only
    rw [if_pos hb]; rfl

theorem enc_length (cs : Text) : cs.length ≤ (enc cs).length := by
  induction cs with
  | nil => simp
  | cons c cs ih =>
    rw [enc_cons, List.length_append, List.length_cons]
    have := List.length_pos_iff.2 (encodeChar_ne_nil c)
    omega

theorem skipToLoop_complete {stop : UInt8 → Bool} {k : Option SyntaxKind} {cs : Text} : ∀ {f : Nat} {cr : Bool} {s : St} {r : Bytes},
    s.src.term = none → (∀ c ∈ cs, Skips stop c) → s.src.rest = enc cs ++ r → Stops stop k r → cs.length < f →
    (skipToLoop stop k f cr).run s = .ok () (mvc s cr (enc cs) r) := by
  induction cs with
  | nil =>
    intro f cr s r ht _ hr hs hf
    obtain ⟨f, rfl⟩ := Nat.exists_eq_succ_of_ne_zero (Nat.ne_of_gt hf)
    have hr : s.src.rest = r := hr
    subst hr
    exact skipToLoop_stop ht hs
  | cons c cs ih =>
    intro f cr s r ht hc hr hs hf
    obtain ⟨f, rfl⟩ := Nat.exists_eq_succ_of_ne_zero (Nat.ne_of_gt (Nat.lt_of_le_of_lt (Nat.zero_le _) hf))
    rw [enc_cons, List.append_assoc] at hr
    rw [Nat.succ_eq_add_one, skipToLoop_char (hc c (by simp)) hr]
    refine (ih (s := mvc s cr _ _) (by simpa using ht) (fun d hd => hc d (by simp [hd])) rfl hs (by simp at hf; omega)).trans ?_
    rw [mvc_mvc _ _ _ _ _ _ _ (posRun_char_flag _ c).symm, enc_cons]

theorem skipToLoop_lo {stop : UInt8 → Bool} {k : Option SyntaxKind} {f : Nat} : ∀ {cr : Bool} {s : St}, s.src.term = none →
    s.src.rest.length < f → Lo (skipToLoop stop k f cr) s (fun _ s' => ∃ cs r, (∀ c ∈ cs, Skips stop c) ∧ Stops stop k r ∧
      s.src.rest = enc cs ++ r ∧ s' = mvc s cr (enc cs) r) := by
  induction f with
  | zero => intro _ s _ h; omega
  | succ f ih =>
    intro cr s ht hf
    by_cases hc : ∃ c r, Skips stop c ∧ s.src.rest = String.utf8EncodeChar c ++ r
    · obtain ⟨c, r, hc, hr⟩ := hc
      have hlen := List.length_pos_iff.2 (encodeChar_ne_nil c)
      refine Wp.congr (skipToLoop_char hc hr) ?_
      refine (ih (s := mvc s cr _ r) (by simpa using ht) (by
        have := congrArg List.length hr; rw [List.length_append] at this; rw [mvc_rest]; omega)).post ?_
      rintro _ _ ⟨cs, r', h1, h2, h3, rfl⟩
      have h3 : r = enc cs ++ r' := h3
      subst h3
      refine ⟨c :: cs, r', ?_, h2, by rw [hr, enc_cons, List.append_assoc], ?_⟩
      · intro d hd
        rcases List.mem_cons.1 hd with rfl | hd
        · exact hc
        · exact h1 d hd
      · rw [mvc_mvc _ _ _ _ _ _ _ (posRun_char_flag _ c).symm, enc_cons]
    · by_cases hs : Stops stop k s.src.rest
      · exact Wp.of_ok (skipToLoop_stop ht hs) ⟨[], s.src.rest, by simp, hs, rfl, rfl⟩
      · refine Wp.post (Q := fun _ _ => False) ?_ (fun _ _ h => h.elim)
        rw [skipToLoop_succ]
        cases hr : s.src.rest with
        | nil =>
          refine Wp.bind_ok (peekByte_nil hr ht) ?_
          dsimp only
          cases k with
          | none => exact absurd (.inl ⟨hr, rfl⟩) hs
          | some k => exact Lo.syntaxErr
        | cons b t =>
          refine Wp.bind_ok (peekByte_cons hr) ?_
          dsimp only
          refine Wp.ite (fun h => absurd (.inr ⟨b, t, hr, h⟩) hs) fun h1 => ?_
          refine Wp.ite (fun _ => Lo.syntaxErr) fun h2 => ?_
          rw [skipTo_cond] at h2
          refine Wp.bind_ok (skipPeekedByte_cons hr) ?_
          have key : ∀ c tl r, String.utf8EncodeChar c = b :: tl → t = tl ++ r → False := by
            intro c tl r he ht
            refine hc ⟨c, r, ⟨(blockChar_byte he).2 h2, ?_⟩, by rw [hr, he, ht]; rfl⟩
            intro b' t' he'
            rw [he] at he'; cases he'
            simpa using h1
          by_cases hb : b.toNat < 0x80
          · exact (key _ [] t (encodeChar_byte hb) rfl).elim
          · refine Wp.bind' (P := fun _ _ => False) ?_ (fun _ _ h => h.elim)
            unfold skipToByte
            refine Wp.ite (fun h => ?_) fun _ => Wp.ite (fun h => ?_) fun _ => Wp.ite (fun h => ?_) fun _ => ?_
            · have h := eq_of_beq h; subst h; exact (hb (by decide)).elim
            · have h := eq_of_beq h; subst h; exact (hb (by decide)).elim
            · exact (hb ((is1byte_iff b).1 h)).elim
            · refine Wp.bind' (readUtf8Multibyte_lo isRb_readByte (by simpa using ht) b) ?_
              rintro bytes _ ⟨c, tl, r, he, hc, rfl, hr2, rfl⟩
              exact (key c tl r he hr2).elim

theorem skipTo_complete {stop : UInt8 → Bool} {k : Option SyntaxKind} {cs : Text} {s : St} {r : Bytes} (ht : s.src.term = none)
    (hc : ∀ c ∈ cs, Skips stop c) (hr : s.src.rest = enc cs ++ r) (hs : Stops stop k r) :
    (skipTo stop k).run s = .ok () (mv s (enc cs) r) := by
  unfold skipTo
  rw [run_get]
  refine skipToLoop_complete ht hc hr hs ?_
  have := enc_length cs
  rw [fuel_eq, hr, List.length_append]
  omega

theorem skipTo_lo {stop : UInt8 → Bool} {k : Option SyntaxKind} {s : St} (ht : s.src.term = none) :
    Lo (skipTo stop k) s (fun _ s' => ∃ cs r, (∀ c ∈ cs, Skips stop c) ∧ Stops stop k r ∧
      s.src.rest = enc cs ++ r ∧ s' = mv s (enc cs) r) := by
  unfold skipTo
  refine Wp.get ?_
  exact skipToLoop_lo ht (by rw [fuel_eq]; omega)

/-! ## Comments -/

theorem skips_line {c : Char} : Skips (fun byte => byte == 0x0A || byte == 0x0D) c ↔ LineCommentChar c := by
  obtain ⟨b, t, he⟩ : ∃ b t, String.utf8EncodeChar c = b :: t := List.exists_cons_of_ne_nil (encodeChar_ne_nil c)
  have enl : String.utf8EncodeChar '\n' = [0x0A] := by decide
  have ecr : String.utf8EncodeChar '\r' = [0x0D] := by decide
  constructor
  · rintro ⟨h | h | h, h2⟩
    · exact h
    · subst h; exact absurd (h2 _ _ enl) (by decide)
    · subst h; exact absurd (h2 _ _ ecr) (by decide)
  · intro h
    refine ⟨.inl h, fun b t he => ?_⟩
    simp only [Bool.or_eq_false_iff, beq_eq_false_iff_ne]
    refine ⟨?_, ?_⟩
    · rintro rfl
      have hv := (char_of_ascii_head he (by decide)).1
      have : c = '\n' := char_ext hv
      subst this
      rcases h with h | h <;> revert h <;> decide
    · rintro rfl
      have hv := (char_of_ascii_head he (by decide)).1
      have : c = '\r' := char_ext hv
      subst this
      rcases h with h | h <;> revert h <;> decide

theorem skips_star {c : Char} : Skips (fun byte => byte == 0x2A) c ↔ BlockCommentChar c ∧ c ≠ '*' := by
  have es : String.utf8EncodeChar '*' = [0x2A] := by decide
  constructor
  · rintro ⟨h, h2⟩
    refine ⟨h, ?_⟩
    rintro rfl
    exact absurd (h2 _ _ es) (by decide)
  · rintro ⟨h, h2⟩
    refine ⟨h, fun b t he => ?_⟩
    rw [beq_eq_false_iff_ne]
    rintro rfl
    exact h2 (char_ext (char_of_ascii_head he (by decide)).1)

theorem noBreak_line {cs : Text} (h : ∀ c ∈ cs, LineCommentChar c) : NoBreak (enc cs) := by
  induction cs with
  | nil => exact NoBreak.nil
  | cons c cs ih =>
    rw [enc_cons]
    refine (noBreak_char ?_ ?_).append (ih fun d hd => h d (by simp [hd]))
    · rintro rfl; rcases h _ (List.mem_cons_self ..) with h | h <;> revert h <;> decide
    · rintro rfl; rcases h _ (List.mem_cons_self ..) with h | h <;> revert h <;> decide

theorem setRest_mv (s : St) (bs r1 r2 : Bytes) : setRest (mv s bs r1) r2 = mv s bs r2 := rfl
theorem mv_setRest (s : St) (bs r1 r2 : Bytes) : mv (setRest s r1) bs r2 = mv s bs r2 := rfl

/-- consuming a single byte -/
theorem advance_one (s : St) {b : UInt8} (h : b.toNat < 0x80 ∧ b ≠ 0x0A ∧ b ≠ 0x0D) :
    (advance 1 1).run s = .ok () (mv s [b] s.src.rest) := advance_plain s (plain_cons h plain_nil) rfl

theorem noSplit_append {a b c : Bytes} (hb : b ≠ []) (h : NoSplit b c) : NoSplit (a ++ b) c := by
  intro hl
  rw [List.getLast?_append] at hl
  cases hb' : b.getLast? with
  | none => rw [List.getLast?_eq_none_iff] at hb'; exact absurd hb' hb
  | some x => rw [hb'] at hl; exact h (hb'.trans hl)

theorem blockEnd_step {s : St} {seg : Text} {r : Bytes} {f : Nat} (ht : s.src.term = none) (hc : ∀ c ∈ seg, BlockCommentChar c ∧ c ≠ '*')
    (hr : s.src.rest = enc seg ++ 0x2A :: r) :
    (skipToBlockCommentEnd (f + 1)).run s = (do
      match ← peekByte with
      | none => syntaxErr .blockCommentNotClosed
      | some byte =>
        if byte == 0x2F then do
          skipPeekedByte
          advance 1 1
        else skipToBlockCommentEnd f : R AbsSrc Unit).run (mv s (enc seg ++ [0x2A]) r) := by
  rw [skipToBlockCommentEnd, M.bind_ok (skipTo_complete ht (fun c h => skips_star.2 (hc c h)) hr (.inr ⟨_, _, rfl, rfl⟩)),
    M.bind_ok (advance_one _ (b := 0x2A) (by decide)), mv_mv _ _ _ (noSplit_cons (by decide)),
    M.bind_ok (skipPeekedByte_cons (b := 0x2A) (t := r) rfl), setRest_mv]
  rfl

theorem split_star (cs : Text) : '*' ∉ cs ∨ ∃ a b, cs = a ++ '*' :: b ∧ '*' ∉ a := by
  induction cs with
  | nil => exact .inl (by simp)
  | cons c cs ih =>
    by_cases h : c = '*'
    · subst h; exact .inr ⟨[], cs, rfl, by simp⟩
    · rcases ih with h' | ⟨a, b, rfl, h'⟩
      · exact .inl (by simp [h', Ne.symm h])
      · exact .inr ⟨c :: a, b, rfl, by simp [h', Ne.symm h]⟩

theorem blockEnd_complete {n : Nat} : ∀ {cs : Text} {s : St} {r : Bytes} {f : Nat}, cs.length ≤ n → s.src.term = none → (∀ c ∈ cs, BlockCommentChar c) →
    ¬ ['*', '/'] <:+: cs → s.src.rest = enc cs ++ 0x2A :: 0x2F :: r → cs.length < f →
    (skipToBlockCommentEnd f).run s = .ok () (mv s (enc cs ++ [0x2A, 0x2F]) r) := by
  induction n with
  | zero =>
    intro cs s r f hn ht hc hi hr hf
    have : cs = [] := List.length_eq_zero_iff.1 (by omega)
    subst this
    obtain ⟨f, rfl⟩ := Nat.exists_eq_succ_of_ne_zero (Nat.ne_of_gt (Nat.lt_of_le_of_lt (Nat.zero_le _) hf))
    rw [Nat.succ_eq_add_one, blockEnd_step (seg := []) ht (by simp) hr, M.bind_ok (peekByte_cons (b := 0x2F) (t := r) rfl)]
    dsimp only
    rw [if_pos (by decide), M.bind_ok (skipPeekedByte_cons (b := 0x2F) (t := r) rfl), advance_one _ (b := 0x2F) (by decide),
      mv_setRest, mv_mv _ _ _ (noSplit_cons (by decide))]
    rfl
  | succ n ih =>
    intro cs s r f hn ht hc hi hr hf
    obtain ⟨f, rfl⟩ := Nat.exists_eq_succ_of_ne_zero (Nat.ne_of_gt (Nat.lt_of_le_of_lt (Nat.zero_le _) hf))
    rcases split_star cs with hs | ⟨a, b, rfl, hs⟩
    · rw [Nat.succ_eq_add_one, blockEnd_step (seg := cs) ht (fun c h => ⟨hc c h, fun e => hs (e ▸ h)⟩) hr, M.bind_ok (peekByte_cons (b := 0x2F) (t := r) rfl)]
      dsimp only
      rw [if_pos (by decide), M.bind_ok (skipPeekedByte_cons (b := 0x2F) (t := r) rfl), advance_one _ (b := 0x2F) (by decide),
        mv_setRest, mv_mv _ _ _ (noSplit_cons (by decide))]
      simp
    · have es : String.utf8EncodeChar '*' = [0x2A] := by decide
      rw [enc_append, enc_cons, es, List.append_assoc] at hr
      have hlen : (a ++ '*' :: b).length = a.length + b.length + 1 := by simp; omega
      rw [Nat.succ_eq_add_one, blockEnd_step (seg := a) (r := enc b ++ 0x2A :: 0x2F :: r) ht
        (fun c h => ⟨hc c (by simp [h]), fun e => hs (e ▸ h)⟩) (by rw [hr]; simp)]
      have hnext : ∃ x t, enc b ++ 0x2A :: 0x2F :: r = x :: t ∧ x ≠ 0x2F := by
        cases b with
        | nil => exact ⟨_, _, rfl, by decide⟩
        | cons d b =>
          obtain ⟨x, t, he⟩ : ∃ b t, String.utf8EncodeChar d = b :: t := List.exists_cons_of_ne_nil (encodeChar_ne_nil d)
          refine ⟨x, t ++ (enc b ++ 0x2A :: 0x2F :: r), by rw [enc_cons, he]; simp, ?_⟩
          rintro rfl
          have : d = '/' := char_ext (char_of_ascii_head he (by decide)).1
          subst this
          exact hi ⟨a, b, by simp⟩
      obtain ⟨x, t, hx, hne⟩ := hnext
      rw [M.bind_ok (peekByte_cons (b := x) (t := t) hx)]
      dsimp only
      rw [if_neg (by simpa using hne)]
      refine (ih (cs := b) (by omega) (by simpa using ht) (fun c h => hc c (by simp [h])) ?_ rfl (by omega)).trans ?_
      · intro hi'
        exact hi (hi'.trans ⟨a ++ ['*'], [], by simp⟩)
      · rw [mv_mv _ _ _ (noSplit_append (by simp) (by rintro ⟨⟩)), enc_append, enc_cons, es]
        simp

theorem infix_cons_split {a b : Text} (ha : '*' ∉ a) (hb : ¬ ['*', '/'] <:+: b) (hh : b.head? ≠ some '/') : ¬ ['*', '/'] <:+: a ++ '*' :: b := by
  rintro ⟨x, y, h⟩
  induction a generalizing x with
  | nil =>
    cases x with
    | nil => simp at h; rw [← h] at hh; simp at hh
    | cons c x => simp at h; exact hb ⟨x, y, by simp [← h.2]⟩
  | cons d a ih =>
    cases x with
    | nil => simp at h; exact ha (by simp [← h.1])
    | cons c x => simp at h; exact ih (fun h => ha (by simp [h])) x (by simp [h.2])

theorem blockEnd_lo {f : Nat} : ∀ {s : St}, s.src.term = none → s.src.rest.length < f →
    Lo (skipToBlockCommentEnd f) s (fun _ s' => ∃ cs r, (∀ c ∈ cs, BlockCommentChar c) ∧ ¬ ['*', '/'] <:+: cs ∧
      s.src.rest = enc cs ++ 0x2A :: 0x2F :: r ∧ s' = mv s (enc cs ++ [0x2A, 0x2F]) r) := by
  have es : String.utf8EncodeChar '*' = [0x2A] := by decide
  induction f with
  | zero => intro s _ h; omega
  | succ f ih =>
    intro s ht hf
    rw [skipToBlockCommentEnd]
    refine Wp.bind' (skipTo_lo ht) ?_
    rintro _ _ ⟨seg, r, hseg, hst, hr, rfl⟩
    rcases hst with ⟨_, ⟨⟩⟩ | ⟨b, t, rfl, hb⟩
    have hb := eq_of_beq hb
    subst hb
    refine Wp.bind_ok (advance_one _ (b := 0x2A) (by decide)) ?_
    rw [mv_mv _ _ _ (noSplit_cons (by decide))]
    refine Wp.bind_ok (skipPeekedByte_cons (b := 0x2A) (t := t) rfl) ?_
    rw [setRest_mv]
    have hseg' := fun c h => skips_star.1 (hseg c h)
    cases ht' : t with
    | nil =>
      refine Wp.bind_ok (peekByte_nil rfl (by simpa using ht)) ?_
      exact Lo.syntaxErr
    | cons x t' =>
      refine Wp.bind_ok (peekByte_cons (b := x) (t := t') rfl) ?_
      dsimp only
      refine Wp.ite (fun h => ?_) fun h => ?_
      · have h := eq_of_beq h
        subst h; subst ht'
        refine Wp.of_ok (a := ()) (s' := mv s (enc seg ++ [0x2A, 0x2F]) t') ?_ ⟨seg, t', fun c h => (hseg' c h).1, ?_, hr, rfl⟩
        · rw [M.bind_ok (skipPeekedByte_cons (b := 0x2F) (t := t') rfl), advance_one _ (b := 0x2F) (by decide),
            mv_setRest, mv_mv _ _ _ (noSplit_cons (by decide))]
          simp
        · rintro ⟨x, y, rfl⟩
          exact (hseg' '*' (by simp)).2 rfl
      · subst ht'
        refine (ih (s := mv s (enc seg ++ [0x2A]) (x :: t')) (by simpa using ht) (by
          have := congrArg List.length hr; simp at this; simp; omega)).post ?_
        rintro _ _ ⟨cs, r, h1, h2, h3, rfl⟩
        have h3 : x :: t' = enc cs ++ 0x2A :: 0x2F :: r := h3
        refine ⟨seg ++ '*' :: cs, r, ?_, ?_, ?_, ?_⟩
        · intro c hc
          rcases List.mem_append.1 hc with hc | hc
          · exact (hseg' c hc).1
          · rcases List.mem_cons.1 hc with rfl | hc
            · exact .inl (.inl (by decide))
            · exact h1 c hc
        · refine infix_cons_split (fun h => (hseg' _ h).2 rfl) h2 ?_
          intro hh
          cases cs with
          | nil => cases hh
          | cons d cs =>
            simp at hh; subst hh
            have e2 : String.utf8EncodeChar '/' = [0x2F] := by decide
            rw [enc_cons, e2] at h3
            simp at h3
            exact h (by simpa using h3.1)
        · rw [hr, h3, enc_append, enc_cons, es]; simp
        · rw [mv_mv _ _ _ (noSplit_append (by simp) (by rintro ⟨⟩)), enc_append, enc_cons, es]
          simp

/-! ## `skip_whitespace` -/

def isSp (b : UInt8) : Prop := b = 0x20 ∨ b = 0x09 ∨ b = 0x0A ∨ b = 0x0D

theorem isWsByte_iff (b : UInt8) : isWsByte b = true ↔ isSp b := by
  unfold isWsByte isSp
  simp [or_assoc]

theorem isSp_ascii {b : UInt8} (h : isSp b) : b.toNat < 0x80 := by
  rcases h with rfl | rfl | rfl | rfl <;> decide

/-- text consisting of whitespace characters -/
def spText (sp : Bytes) : Text := sp.map fun b => Char.ofNat b.toNat

theorem enc_spText {sp : Bytes} (h : ∀ b ∈ sp, isSp b) : enc (spText sp) = sp := by
  induction sp with
  | nil => rfl
  | cons b sp ih =>
    show enc (Char.ofNat b.toNat :: spText sp) = _
    rw [enc_cons, encodeChar_byte (isSp_ascii (h b (by simp))), ih fun x hx => h x (by simp [hx])]
    rfl

theorem skips_sp {c : Char} : Skips (fun byte => !isWsByte byte) c ↔ ∃ b, isSp b ∧ String.utf8EncodeChar c = [b] := by
  constructor
  · rintro ⟨_, h2⟩
    obtain ⟨b, t, he⟩ : ∃ b t, String.utf8EncodeChar c = b :: t := List.exists_cons_of_ne_nil (encodeChar_ne_nil c)
    have hb := (isWsByte_iff b).1 (by simpa using h2 b t he)
    obtain ⟨_, rfl⟩ := char_of_ascii_head he (isSp_ascii hb)
    exact ⟨b, hb, he⟩
  · rintro ⟨b, hb, he⟩
    refine ⟨(blockChar_byte he).2 ?_, ?_⟩
    · rcases hb with rfl | rfl | rfl | rfl <;> decide
    · intro b' t' he'
      rw [he] at he'; cases he'
      simpa using (isWsByte_iff b).2 hb

theorem skips_sp_text {cs : Text} (h : ∀ c ∈ cs, Skips (fun byte => !isWsByte byte) c) : ∃ sp, (∀ b ∈ sp, isSp b) ∧ enc cs = sp := by
  induction cs with
  | nil => exact ⟨[], by simp, rfl⟩
  | cons c cs ih =>
    obtain ⟨sp, h1, h2⟩ := ih fun d hd => h d (by simp [hd])
    obtain ⟨b, hb, he⟩ := skips_sp.1 (h c (by simp))
    refine ⟨b :: sp, ?_, by rw [enc_cons, he, h2]; rfl⟩
    intro x hx
    rcases List.mem_cons.1 hx with rfl | hx
    · exact hb
    · exact h1 x hx

/-- does not start with whitespace -/
def NoSp (r : Bytes) : Prop := ∀ b t, r = b :: t → ¬ isSp b

theorem skipSp_complete {s : St} {sp r : Bytes} (ht : s.src.term = none) (h : ∀ b ∈ sp, isSp b) (hr : s.src.rest = sp ++ r) (hs : NoSp r) :
    (skipTo (fun byte => !isWsByte byte) none).run s = .ok () (mv s sp r) := by
  refine (skipTo_complete (cs := spText sp) (r := r) ht ?_ (by rw [enc_spText h]; exact hr) ?_).trans (by rw [enc_spText h])
  · intro c hc
    obtain ⟨b, hb, rfl⟩ := List.mem_map.1 hc
    exact skips_sp.2 ⟨b, h b hb, encodeChar_byte (isSp_ascii (h b hb))⟩
  · cases r with
    | nil => exact .inl ⟨rfl, rfl⟩
    | cons b t => exact .inr ⟨b, t, rfl, by
        have := mt (isWsByte_iff b).1 (hs b t rfl)
        simpa using this⟩

theorem skipSp_lo {s : St} (ht : s.src.term = none) : Lo (skipTo (fun byte => !isWsByte byte) none) s (fun _ s' =>
    ∃ sp r, (∀ b ∈ sp, isSp b) ∧ s.src.rest = sp ++ r ∧ NoSp r ∧ s' = mv s sp r) := by
  refine (skipTo_lo ht).post ?_
  rintro _ _ ⟨cs, r, h1, h2, h3, rfl⟩
  obtain ⟨sp, hsp, he⟩ := skips_sp_text h1
  subst he
  refine ⟨enc cs, r, hsp, h3, ?_, rfl⟩
  rintro b t rfl
  rcases h2 with ⟨⟨⟩, _⟩ | ⟨b', t', he, hb⟩
  cases he
  exact fun h => by simp [(isWsByte_iff b).2 h] at hb

theorem skipWhitespaceLoop_succ (k : Option SyntaxKind) (f : Nat) : (skipWhitespaceLoop k (f + 1) : R AbsSrc (Option UInt8)) = (do
    skipTo (fun byte => !isWsByte byte) none
    match ← peekByte with
    | none =>
      match k with
      | none => pure none
      | some kind => syntaxErr kind
    | some byte =>
      if byte == 0x2F then do
        let s ← M.get
        if !s.settings.allowComments then syntaxErr .commentsNotEnabled
        else do
          skipComment k
          skipWhitespaceLoop k f
      else pure (some byte)) := rfl

/-- A byte at which `skip_whitespace` stops -/
def TokStart (b : UInt8) : Prop := ¬ isSp b ∧ b ≠ 0x2F

theorem noSp_cons {b : UInt8} {t : Bytes} (h : ¬ isSp b) : NoSp (b :: t) := by
  rintro _ _ ⟨⟩; exact h
theorem noSp_nil : NoSp [] := by rintro _ _ ⟨⟩

theorem noBreak_slash2 : NoBreak [0x2F, 0x2F] := (plain_cons (by decide) (plain_cons (by decide) plain_nil) : Plain [0x2F, 0x2F]).noBreak
theorem noBreak_slashStar : NoBreak [0x2F, 0x2A] := (plain_cons (by decide) (plain_cons (by decide) plain_nil) : Plain [0x2F, 0x2A]).noBreak
theorem ns_slash2 (a : Bytes) (cs : Text) : NoSplit a ([0x2F, 0x2F] ++ enc cs) := noSplit_cons (by decide)
theorem ns_block (a : Bytes) (cs : Text) : NoSplit a (WsItem.block cs).bytes := noSplit_cons (by decide)
theorem ns_block_left (a b : Bytes) (cs : Text) : NoSplit (a ++ (WsItem.block cs).bytes) b := by
  refine noSplit_append (by simp [WsItem.bytes]) ?_
  intro hl
  simp [WsItem.bytes, List.getLast?_cons] at hl
theorem ns_line_left (a b : Bytes) {cs : Text} (h : ∀ c ∈ cs, LineCommentChar c) : NoSplit (a ++ ([0x2F, 0x2F] ++ enc cs)) b :=
  noSplit_append (by simp) (NoBreak.left (noBreak_slash2.append (noBreak_line h)))

theorem skipComment_block {s : St} {cs : Text} {r : Bytes} (k : Option SyntaxKind) (ht : s.src.term = none) (h1 : ∀ c ∈ cs, BlockCommentChar c)
    (h2 : ¬ ['*', '/'] <:+: cs) (hr : s.src.rest = (WsItem.block cs).bytes ++ r) :
    (skipComment k).run s = .ok () (mv s (WsItem.block cs).bytes r) := by
  have hr' : s.src.rest = 0x2F :: 0x2A :: (enc cs ++ 0x2A :: 0x2F :: r) := by rw [hr]; simp [WsItem.bytes]
  unfold skipComment
  rw [M.bind_ok (skipPeekedByte_cons hr'), M.bind_ok (advance_one _ (b := 0x2F) (by decide)), mv_setRest,
    M.bind_ok (readByte_cons (b := 0x2A) (t := enc cs ++ 0x2A :: 0x2F :: r) _ rfl), setRest_mv, if_pos (by decide),
    M.bind_ok (advance_one _ (b := 0x2A) (by decide)), mv_mv _ _ _ (noSplit_cons (by decide)), run_get]
  refine (blockEnd_complete (n := cs.length) (cs := cs) (r := r) (Nat.le_refl _) ?_ h1 h2 rfl ?_).trans ?_
  · simpa using ht
  · have := enc_length cs
    rw [fuel_eq]
    simp
    omega
  · refine congrArg _ ((mv_mv _ _ _ (NoBreak.left noBreak_slashStar)).trans ?_)
    simp [WsItem.bytes]

theorem skipComment_line {s : St} {cs : Text} {r : Bytes} (k : Option SyntaxKind) (ht : s.src.term = none) (h1 : ∀ c ∈ cs, LineCommentChar c)
    (hr : s.src.rest = [0x2F, 0x2F] ++ enc cs ++ r) (hs : (r = [] ∧ k = none) ∨ ∃ b t, r = b :: t ∧ (b = 0x0A ∨ b = 0x0D)) :
    (skipComment k).run s = .ok () (mv s ([0x2F, 0x2F] ++ enc cs) r) := by
  have hr' : s.src.rest = 0x2F :: 0x2F :: (enc cs ++ r) := by rw [hr]; simp
  unfold skipComment
  rw [M.bind_ok (skipPeekedByte_cons hr'), M.bind_ok (advance_one _ (b := 0x2F) (by decide)), mv_setRest,
    M.bind_ok (readByte_cons (b := 0x2F) (t := enc cs ++ r) _ rfl), setRest_mv, if_neg (by decide), if_pos (by decide),
    M.bind_ok (advance_one _ (b := 0x2F) (by decide)), mv_mv _ _ _ (noSplit_cons (by decide))]
  refine (skipTo_complete (cs := cs) (r := r) ?_ (fun c hc => skips_line.2 (h1 c hc)) rfl ?_).trans ?_
  · simpa using ht
  · rcases hs with h | ⟨b, t, rfl, hb⟩
    · exact .inl h
    · exact .inr ⟨b, t, rfl, by rcases hb with rfl | rfl <;> rfl⟩
  · exact congrArg _ (mv_mv _ _ _ (NoBreak.left noBreak_slash2))

theorem skipComment_lo {s : St} {t : Bytes} {k : Option SyntaxKind} (ht : s.src.term = none) (hr : s.src.rest = 0x2F :: t) :
    Lo (skipComment k) s (fun _ s' =>
      (∃ cs r, (∀ c ∈ cs, BlockCommentChar c) ∧ ¬ ['*', '/'] <:+: cs ∧ s.src.rest = (WsItem.block cs).bytes ++ r ∧
        s' = mv s (WsItem.block cs).bytes r) ∨
      (∃ cs r, (∀ c ∈ cs, LineCommentChar c) ∧ s.src.rest = [0x2F, 0x2F] ++ enc cs ++ r ∧
        ((r = [] ∧ k = none) ∨ ∃ b t, r = b :: t ∧ (b = 0x0A ∨ b = 0x0D)) ∧ s' = mv s ([0x2F, 0x2F] ++ enc cs) r)) := by
  unfold skipComment
  refine Wp.bind_ok (skipPeekedByte_cons hr) ?_
  refine Wp.bind_ok (advance_one _ (b := 0x2F) (by decide)) ?_
  rw [mv_setRest]
  refine Wp.bind (isRb_readByte.lo (by simpa using ht) fun b u hu => ?_)
  have hu : t = b :: u := hu
  subst hu
  rw [eat_false, setRest_mv]
  refine Wp.ite (fun h => ?_) fun h => Wp.ite (fun h2 => ?_) fun h2 => Lo.syntaxErr
  · have h := eq_of_beq h
    subst h
    refine Wp.bind_ok (advance_one _ (b := 0x2A) (by decide)) ?_
    rw [mv_mv _ _ _ (noSplit_cons (by decide))]
    refine Wp.get ?_
    refine (blockEnd_lo (by simpa using ht) (by rw [fuel_eq]; omega)).post ?_
    rintro _ _ ⟨cs, r, h1, h2, h3, rfl⟩
    have h3 : u = _ := h3
    refine .inl ⟨cs, r, h1, h2, by rw [hr, h3]; simp [WsItem.bytes], ?_⟩
    refine (mv_mv _ _ _ (NoBreak.left noBreak_slashStar)).trans ?_
    simp [WsItem.bytes]
  · have h2 := eq_of_beq h2
    subst h2
    refine Wp.bind_ok (advance_one _ (b := 0x2F) (by decide)) ?_
    rw [mv_mv _ _ _ (noSplit_cons (by decide))]
    unfold skipToLineCommentEnd
    refine (skipTo_lo (by simpa using ht)).post ?_
    rintro _ _ ⟨cs, r, h1, h2, h3, rfl⟩
    have h3 : u = _ := h3
    refine .inr ⟨cs, r, fun c hc => skips_line.1 (h1 c hc), by rw [hr, h3]; simp, ?_, ?_⟩
    · rcases h2 with h2 | ⟨b, t, rfl, hb⟩
      · exact .inl h2
      · exact .inr ⟨b, t, rfl, by simpa using hb⟩
    · exact mv_mv _ _ _ (NoBreak.left noBreak_slash2)

/-- What is behind the whitespace and what is returned -/
inductive WsEnd (k : Option SyntaxKind) (comments : Bool) : Bytes → Option UInt8 → Bytes → Prop
  | tok (b : UInt8) (t : Bytes) : TokStart b → WsEnd k comments [] (some b) (b :: t)
  | eof : k = none → WsEnd k comments [] none []
  | comment (cs : Text) : k = none → comments = true → (∀ c ∈ cs, LineCommentChar c) → WsEnd k comments ([0x2F, 0x2F] ++ enc cs) none []

theorem Ws.bytes_nil : Ws.bytes [] = [] := rfl
theorem Ws.bytes_cons (i : WsItem) (w : Ws) : Ws.bytes (i :: w) = i.bytes ++ Ws.bytes w := List.flatMap_cons ..

theorem wsEnd_head {k : Option SyntaxKind} {cm : Bool} {e r : Bytes} {o : Option UInt8} (h : WsEnd k cm e o r) : NoSp (e ++ r) := by
  cases h with
  | tok b t h => exact noSp_cons h.1
  | eof => exact noSp_nil
  | comment cs => exact noSp_cons (by unfold isSp; decide)

theorem skipWhitespaceLoop_complete {k : Option SyntaxKind} {cm : Bool} {e r : Bytes} {o : Option UInt8} (he : WsEnd k cm e o r) {w : Ws} :
    ∀ {s : St} {sp : Bytes} {f : Nat}, s.src.term = none → s.settings.allowComments = cm → w.Ok cm →
      (∀ b ∈ sp, isSp b) → s.src.rest = sp ++ (Ws.bytes w ++ (e ++ r)) → (Ws.bytes w).length + e.length < f →
      (skipWhitespaceLoop k f).run s = .ok o (mv s (sp ++ (Ws.bytes w ++ e)) r) := by
  induction w with
  | nil =>
    intro s sp f ht hcm hw hsp hr hf
    obtain ⟨f, rfl⟩ := Nat.exists_eq_succ_of_ne_zero (Nat.ne_of_gt (Nat.lt_of_le_of_lt (Nat.zero_le _) hf))
    rw [Nat.succ_eq_add_one, skipWhitespaceLoop_succ, M.bind_ok (skipSp_complete (r := e ++ r) ht hsp hr (wsEnd_head he))]
    cases he with
    | tok b t hb =>
      rw [M.bind_ok (peekByte_cons (b := b) (t := t) rfl)]
      dsimp only
      rw [if_neg (by simpa using hb.2)]
      rw [Ws.bytes_nil, List.append_nil, List.append_nil]; rfl
    | eof hk =>
      subst hk
      rw [M.bind_ok (peekByte_nil rfl (by simpa using ht))]
      rw [Ws.bytes_nil, List.append_nil, List.append_nil]; rfl
    | comment cs hk hc hcs =>
      subst hk; subst hc
      rw [M.bind_ok (peekByte_cons (b := 0x2F) (t := 0x2F :: (enc cs ++ [])) rfl)]
      dsimp only
      rw [if_pos (by decide), run_get, if_neg (by rw [mv_settings, hcm]; decide),
        M.bind_ok (skipComment_line (r := []) none (by simpa using ht) hcs rfl (.inl ⟨rfl, rfl⟩)),
        mv_mv _ _ _ (ns_slash2 _ _)]
      obtain ⟨f, rfl⟩ := Nat.exists_eq_succ_of_ne_zero (n := f) (by simp at hf; omega)
      rw [Nat.succ_eq_add_one, skipWhitespaceLoop_succ, M.bind_ok (skipSp_complete (sp := []) (r := []) (by simpa using ht) (by simp) rfl noSp_nil),
        M.bind_ok (peekByte_nil rfl (by simpa using ht))]
      rfl
  | cons i w ih =>
    intro s sp f ht hcm hw hsp hr hf
    have hi := hw i (by simp)
    have hw' : Ws.Ok cm w := fun j hj => hw j (by simp [hj])
    rw [Ws.bytes_cons] at hr hf ⊢
    rw [List.length_append] at hf
    cases i with
    | space b =>
      refine (ih (sp := sp ++ [b]) ht hcm hw' ?_ (by rw [hr]; simp [WsItem.bytes]) ?_).trans (by simp [WsItem.bytes])
      · intro x hx
        rcases List.mem_append.1 hx with hx | hx
        · exact hsp x hx
        · rw [List.mem_singleton] at hx; subst hx; exact hi
      · omega
    | line cs nl =>
      obtain ⟨hc, hcs, hnl⟩ := hi
      obtain ⟨f, rfl⟩ := Nat.exists_eq_succ_of_ne_zero (Nat.ne_of_gt (Nat.lt_of_le_of_lt (Nat.zero_le _) hf))
      have hl : (WsItem.line cs nl).bytes.length = (enc cs).length + 3 := by simp [WsItem.bytes]
      rw [Nat.succ_eq_add_one, skipWhitespaceLoop_succ, M.bind_ok (skipSp_complete (r := 0x2F :: 0x2F :: (enc cs ++ nl :: (Ws.bytes w ++ (e ++ r)))) ht hsp
        (by rw [hr]; simp [WsItem.bytes]) (noSp_cons (by unfold isSp; decide)))]
      rw [M.bind_ok (peekByte_cons (b := 0x2F) rfl)]
      dsimp only
      rw [if_pos (by decide), run_get, if_neg (by rw [mv_settings, hcm, hc]; decide),
        M.bind_ok (skipComment_line (r := nl :: (Ws.bytes w ++ (e ++ r))) k (by simpa using ht) hcs (by simp) (.inr ⟨_, _, rfl, hnl⟩)),
        mv_mv _ _ _ (ns_slash2 _ _)]
      refine (ih (sp := [nl]) (by simpa using ht) (by simpa using hcm) hw' ?_ rfl (by omega)).trans ?_
      · intro x hx
        rw [List.mem_singleton] at hx; subst hx
        exact .inr (.inr hnl)
      · rw [mv_mv _ _ _ (ns_line_left _ _ hcs)]
        simp [WsItem.bytes]
    | block cs =>
      obtain ⟨hc, hcs, hin⟩ := hi
      obtain ⟨f, rfl⟩ := Nat.exists_eq_succ_of_ne_zero (Nat.ne_of_gt (Nat.lt_of_le_of_lt (Nat.zero_le _) hf))
      have hl : (WsItem.block cs).bytes.length = (enc cs).length + 4 := by simp [WsItem.bytes]
      rw [Nat.succ_eq_add_one, skipWhitespaceLoop_succ, M.bind_ok (skipSp_complete (r := 0x2F :: 0x2A :: (enc cs ++ 0x2A :: 0x2F :: (Ws.bytes w ++ (e ++ r)))) ht hsp
        (by rw [hr]; simp [WsItem.bytes]) (noSp_cons (by unfold isSp; decide)))]
      rw [M.bind_ok (peekByte_cons (b := 0x2F) rfl)]
      dsimp only
      rw [if_pos (by decide), run_get, if_neg (by rw [mv_settings, hcm, hc]; decide),
        M.bind_ok (skipComment_block (cs := cs) (r := Ws.bytes w ++ (e ++ r)) k (by simpa using ht) hcs hin (by simp [WsItem.bytes])),
        mv_mv _ _ _ (ns_block _ _)]
      refine (ih (sp := []) (by simpa using ht) (by simpa using hcm) hw' (by simp) rfl (by omega)).trans ?_
      rw [mv_mv _ _ _ (ns_block_left _ _ _)]
      simp

theorem spItems_bytes {sp : Bytes} : Ws.bytes (sp.map WsItem.space) = sp := by
  induction sp with
  | nil => rfl
  | cons b sp ih => rw [List.map_cons, Ws.bytes_cons, ih]; rfl

theorem Ws.bytes_append (a b : Ws) : Ws.bytes (a ++ b) = Ws.bytes a ++ Ws.bytes b := List.flatMap_append ..

theorem spItems_ok {sp : Bytes} (h : ∀ b ∈ sp, isSp b) (cm : Bool) : Ws.Ok cm (sp.map WsItem.space) := by
  intro i hi
  obtain ⟨b, hb, rfl⟩ := List.mem_map.1 hi
  exact h b hb

theorem Ws.Ok.append {cm : Bool} {a b : Ws} (ha : a.Ok cm) (hb : b.Ok cm) : Ws.Ok cm (a ++ b) := by
  intro i hi
  rcases List.mem_append.1 hi with hi | hi
  · exact ha i hi
  · exact hb i hi

theorem Ws.Ok.cons {cm : Bool} {i : WsItem} {b : Ws} (ha : i.Ok cm) (hb : b.Ok cm) : Ws.Ok cm (i :: b) := by
  intro j hj
  rcases List.mem_cons.1 hj with rfl | hj
  · exact ha
  · exact hb j hj

/-- whitespace starting with a whitespace byte -/
theorem ws_head_space {w : Ws} {cm : Bool} {e r t : Bytes} {nl : UInt8} (hw : w.Ok cm) (h : NoSp (e ++ r)) (hnl : isSp nl) (he : nl :: t = Ws.bytes w ++ (e ++ r)) :
    ∃ w', w = .space nl :: w' ∧ t = Ws.bytes w' ++ (e ++ r) ∧ Ws.Ok cm w' := by
  cases w with
  | nil => exact absurd hnl (h nl t he.symm)
  | cons i w =>
    rw [Ws.bytes_cons] at he
    cases i with
    | space b =>
      simp [WsItem.bytes] at he
      obtain ⟨rfl, rfl⟩ := he
      exact ⟨w, rfl, by simp, fun j hj => hw j (by simp [hj])⟩
    | line cs x =>
      simp [WsItem.bytes] at he
      obtain ⟨rfl, _⟩ := he
      unfold isSp at hnl
      exact absurd hnl (by decide)
    | block cs =>
      simp [WsItem.bytes] at he
      obtain ⟨rfl, _⟩ := he
      unfold isSp at hnl
      exact absurd hnl (by decide)

theorem skipWhitespaceLoop_lo {k : Option SyntaxKind} {f : Nat} : ∀ {s : St}, s.src.term = none → s.src.rest.length < f →
    Lo (skipWhitespaceLoop k f) s (fun o s' => ∃ (w : Ws) (e r : Bytes), w.Ok s.settings.allowComments ∧ WsEnd k s.settings.allowComments e o r ∧
      s.src.rest = Ws.bytes w ++ (e ++ r) ∧ s' = mv s (Ws.bytes w ++ e) r) := by
  induction f with
  | zero => intro s _ h; omega
  | succ f ih =>
    intro s ht hf
    rw [skipWhitespaceLoop_succ]
    refine Wp.bind' (skipSp_lo ht) ?_
    rintro _ _ ⟨sp, r, hsp, hr, hns, rfl⟩
    cases r with
    | nil =>
      refine Wp.bind_ok (peekByte_nil rfl (by simpa using ht)) ?_
      dsimp only
      cases k with
      | none => exact Wp.pure ⟨sp.map .space, [], [], spItems_ok hsp _, .eof rfl, by rw [spItems_bytes]; exact hr, by rw [spItems_bytes, List.append_nil]⟩
      | some k => exact Lo.syntaxErr
    | cons b t =>
      refine Wp.bind_ok (peekByte_cons (b := b) rfl) ?_
      dsimp only
      refine Wp.ite (fun hb => ?_) fun hb => ?_
      · have hb := eq_of_beq hb
        subst hb
        refine Wp.get ?_
        refine Wp.ite (fun _ => Lo.syntaxErr) fun hc => ?_
        have hc : s.settings.allowComments = true := by simpa using hc
        refine Wp.bind' (skipComment_lo (by simpa using ht) rfl) ?_
        rintro _ _ (⟨cs, r, h1, h2, h3, rfl⟩ | ⟨cs, r, h1, h2, h3, rfl⟩)
        · have h3 : 0x2F :: t = _ := h3
          rw [mv_mv _ _ _ (ns_block _ _)]
          refine (ih (s := mv s _ r) (by simpa using ht) ?_).post ?_
          · have := congrArg List.length hr
            have h3' := congrArg List.length h3
            simp [WsItem.bytes] at this h3'
            rw [mv_rest]; omega
          · rintro o _ ⟨w, e, r', hw, he, hr', rfl⟩
            have hr' : r = _ := hr'
            refine ⟨sp.map .space ++ .block cs :: w, e, r', ?_, he, ?_, ?_⟩
            · exact Ws.Ok.append (spItems_ok hsp _) (Ws.Ok.cons ⟨hc, h1, h2⟩ hw)
            · rw [hr, h3, hr', Ws.bytes_append, spItems_bytes, Ws.bytes_cons]; simp
            · rw [mv_mv _ _ _ (ns_block_left _ _ _), Ws.bytes_append, spItems_bytes, Ws.bytes_cons]; simp
        · have h2 : 0x2F :: t = _ := h2
          rw [mv_mv _ _ _ (ns_slash2 _ _)]
          refine (ih (s := mv s _ r) (by simpa using ht) ?_).post ?_
          · have := congrArg List.length hr
            have h2' := congrArg List.length h2
            simp at this h2'
            rw [mv_rest]; omega
          · rintro o _ ⟨w, e, r', hw, he, hr', rfl⟩
            have hr' : r = _ := hr'
            have hmv : ∀ x, mv (mv s (sp ++ ([0x2F, 0x2F] ++ enc cs)) r) x r' = mv s (sp ++ ([0x2F, 0x2F] ++ enc cs) ++ x) r' := fun x =>
              mv_mv _ _ _ (ns_line_left _ _ h1)
            rcases h3 with ⟨rfl, rfl⟩ | ⟨nl, t', rfl, hnl⟩
            · -- comment ended by the end of the input
              have hl1 := (List.append_eq_nil_iff.1 hr'.symm).1
              have hl2 := (List.append_eq_nil_iff.1 (List.append_eq_nil_iff.1 hr'.symm).2).1
              have hl3 := (List.append_eq_nil_iff.1 (List.append_eq_nil_iff.1 hr'.symm).2).2
              cases he with
              | tok b t => cases hl3
              | eof =>
                refine ⟨sp.map .space, [0x2F, 0x2F] ++ enc cs, [], spItems_ok hsp _, .comment cs rfl hc h1, ?_, ?_⟩
                · rw [hr, h2, spItems_bytes]
                · rw [hmv, hl1, spItems_bytes]; simp
              | comment cs => simp at hl2
            · obtain ⟨w', rfl, ht', hw'⟩ := ws_head_space hw (wsEnd_head he) (.inr (.inr hnl)) hr'
              refine ⟨sp.map .space ++ .line cs nl :: w', e, r', ?_, he, ?_, ?_⟩
              · exact Ws.Ok.append (spItems_ok hsp _) (Ws.Ok.cons ⟨hc, h1, hnl⟩ hw')
              · rw [hr, h2, ht', Ws.bytes_append, spItems_bytes, Ws.bytes_cons]; simp [WsItem.bytes]
              · rw [hmv, Ws.bytes_append, spItems_bytes, Ws.bytes_cons, Ws.bytes_cons]; simp [WsItem.bytes]
      · refine Wp.pure ⟨sp.map .space, [], b :: t, spItems_ok hsp _, .tok b t ⟨hns b t rfl, by simpa using hb⟩, ?_, ?_⟩
        · rw [hr, spItems_bytes]; rfl
        · rw [spItems_bytes, List.append_nil]

theorem skipWhitespace_complete {k : Option SyntaxKind} {e r : Bytes} {o : Option UInt8} {s : St} {w : Ws} (ht : s.src.term = none)
    (hw : w.Ok s.settings.allowComments) (he : WsEnd k s.settings.allowComments e o r) (hr : s.src.rest = w.bytes ++ (e ++ r)) :
    (skipWhitespace k).run s = .ok o (mv s (w.bytes ++ e) r) := by
  unfold skipWhitespace
  rw [run_get]
  refine (skipWhitespaceLoop_complete he (sp := []) ht rfl hw (by simp) hr ?_).trans rfl
  rw [fuel_eq, hr, List.length_append, List.length_append]
  omega

/-- whitespace in front of a token -/
theorem skipWhitespace_tok {k : Option SyntaxKind} {b : UInt8} {t : Bytes} {s : St} {w : Ws} (ht : s.src.term = none)
    (hw : w.Ok s.settings.allowComments) (hb : TokStart b) (hr : s.src.rest = w.bytes ++ b :: t) :
    (skipWhitespace k).run s = .ok (some b) (mv s w.bytes (b :: t)) :=
  (skipWhitespace_complete ht hw (.tok b t hb) hr).trans (by rw [List.append_nil])

/-- whitespace at the end of the input -/
theorem skipWhitespace_eof {s : St} {w : TrailWs} (ht : s.src.term = none) (hw : w.Ok s.settings.allowComments) (hr : s.src.rest = w.bytes) :
    (skipWhitespace none).run s = .ok none (mv s w.bytes []) := by
  obtain ⟨ws, oc⟩ := w
  cases oc with
  | none => exact (skipWhitespace_complete ht hw.1 (.eof rfl) hr).trans rfl
  | some cs => exact (skipWhitespace_complete ht hw.1 (.comment cs rfl (hw.2 cs rfl).1 (hw.2 cs rfl).2) (by rw [hr]; simp [TrailWs.bytes])).trans rfl

theorem skipWhitespace_lo {k : Option SyntaxKind} {s : St} (ht : s.src.term = none) : Lo (skipWhitespace k) s (fun o s' =>
    (∃ (w : Ws) (b : UInt8) (t : Bytes), w.Ok s.settings.allowComments ∧ TokStart b ∧ o = some b ∧ s.src.rest = w.bytes ++ b :: t ∧ s' = mv s w.bytes (b :: t)) ∨
    (k = none ∧ o = none ∧ ∃ w : TrailWs, w.Ok s.settings.allowComments ∧ s.src.rest = w.bytes ∧ s' = mv s w.bytes [])) := by
  unfold skipWhitespace
  refine Wp.get ?_
  refine (skipWhitespaceLoop_lo ht (by rw [fuel_eq]; omega)).post ?_
  rintro o _ ⟨w, e, r, hw, he, hr, rfl⟩
  cases he with
  | tok b t hb => exact .inl ⟨w, b, t, hw, hb, rfl, hr, by rw [List.append_nil]⟩
  | eof hk => exact .inr ⟨hk, rfl, ⟨w, none⟩, ⟨hw, by rintro _ ⟨⟩⟩, hr, rfl⟩
  | comment cs hk hc hcs => exact .inr ⟨hk, rfl, ⟨w, some cs⟩, ⟨hw, by rintro _ ⟨⟩; exact ⟨hc, hcs⟩⟩, by rw [hr]; simp [TrailWs.bytes], rfl⟩

theorem skipWhitespaceNoEof_tok {k : SyntaxKind} {b : UInt8} {t : Bytes} {s : St} {w : Ws} (ht : s.src.term = none)
    (hw : w.Ok s.settings.allowComments) (hb : TokStart b) (hr : s.src.rest = w.bytes ++ b :: t) :
    (skipWhitespaceNoEof k).run s = .ok b (mv s w.bytes (b :: t)) := by
  unfold skipWhitespaceNoEof
  rw [M.bind_ok (skipWhitespace_tok ht hw hb hr)]
  rfl

theorem skipWhitespaceNoEof_lo {k : SyntaxKind} {s : St} (ht : s.src.term = none) : Lo (skipWhitespaceNoEof k) s (fun b s' =>
    ∃ (w : Ws) (t : Bytes), w.Ok s.settings.allowComments ∧ TokStart b ∧ s.src.rest = w.bytes ++ b :: t ∧ s' = mv s w.bytes (b :: t)) := by
  unfold skipWhitespaceNoEof
  refine Wp.bind' (skipWhitespace_lo ht) ?_
  rintro _ _ (⟨w, b, t, h1, h2, rfl, h3, rfl⟩ | ⟨⟨⟩, _⟩)
  exact Wp.pure ⟨w, t, h1, h2, h3, rfl⟩

end Verif.Abs

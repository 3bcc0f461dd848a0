import Verif.Model.Debug
import Verif.Spec.Debug
import Verif.Proofs.Utf8
/-!
# The `Debug` implementations: texts and bytes
-/

namespace Verif.Debug
open DebugSpec Utf8

theorem lenUtf8_pos (c : Char) : 0 < lenUtf8 c := by
  unfold lenUtf8; rw [String.length_utf8EncodeChar]; exact Char.utf8Size_pos c

theorem enc_length_cons (c : Char) (s : Text) : (enc (c :: s)).length = lenUtf8 c + (enc s).length := by
  rw [enc_cons, List.length_append]; rfl

theorem charIndicesFrom_get {s : Text} : ∀ {k i : Nat}, (charIndicesFrom k s)[i]? = (s[i]?).map fun c => (k + (enc (s.take i)).length, c) := by
  induction s with
  | nil => intros; rfl
  | cons c s ih =>
    intro k i
    unfold charIndicesFrom
    cases i with
    | zero => rfl
    | succ i =>
      rw [List.getElem?_cons_succ, List.getElem?_cons_succ, ih, List.take_succ_cons, enc_length_cons]
      simp only [Nat.add_assoc]

theorem charIndices_get {s : Text} {i : Nat} : (charIndices s)[i]? = (s[i]?).map fun c => ((enc (s.take i)).length, c) := by
  unfold charIndices
  rw [charIndicesFrom_get]
  simp only [Nat.zero_add]

theorem charIndicesFrom_length {s : Text} : ∀ {k : Nat}, (charIndicesFrom k s).length = s.length := by
  induction s with
  | nil => intros; rfl
  | cons c s ih => intro k; unfold charIndicesFrom; rw [List.length_cons, ih, List.length_cons]

theorem sliceTo_append {a b : Text} : sliceTo (a ++ b) (enc a).length = some a := by
  induction a with
  | nil => unfold sliceTo; rfl
  | cons c a ih =>
    rw [enc_length_cons]
    have := lenUtf8_pos c
    obtain ⟨n, hn⟩ : ∃ n, lenUtf8 c + (enc a).length = n + 1 := ⟨lenUtf8 c + (enc a).length - 1, by omega⟩
    rw [hn, List.cons_append]
    unfold sliceTo
    rw [if_neg (by omega), show n + 1 - lenUtf8 c = (enc a).length by omega, ih]
    rfl

theorem sliceFrom_append {a b : Text} : sliceFrom (a ++ b) (enc a).length = some b := by
  induction a with
  | nil => unfold sliceFrom; rfl
  | cons c a ih =>
    rw [enc_length_cons]
    have := lenUtf8_pos c
    obtain ⟨n, hn⟩ : ∃ n, lenUtf8 c + (enc a).length = n + 1 := ⟨lenUtf8 c + (enc a).length - 1, by omega⟩
    rw [hn, List.cons_append]
    unfold sliceFrom
    rw [if_neg (by omega), show n + 1 - lenUtf8 c = (enc a).length by omega, ih]

theorem limitStr_eq (s : Text) (b : Bool) : limitStr s b = some (s.take 45 ++ if b = true ∧ 45 < s.length then ellipsis else []) := by
  unfold limitStr
  rw [charIndices_get]
  by_cases h : 45 < s.length
  · rw [List.getElem?_eq_getElem h]
    simp only [Option.map_some]
    have := sliceTo_append (a := s.take 45) (b := s.drop 45)
    rw [List.take_append_drop] at this
    rw [this]
    cases b <;> simp [h]
  · rw [List.getElem?_eq_none (by omega)]
    simp only [Option.map_none]
    rw [if_neg (fun h' => h h'.2), List.append_nil, List.take_of_length_le (by omega)]

theorem limitStrMiddle_eq (s : Text) : limitStrMiddle s = some (shorten s) := by
  unfold limitStrMiddle shorten
  by_cases h : s.length ≤ 55
  · rw [if_pos h, if_pos h]
  · rw [if_neg h, if_neg h, List.getElem?_reverse (by unfold charIndices; rw [charIndicesFrom_length]; omega)]
    rw [charIndices_get, charIndices_get, List.getElem?_eq_getElem (by omega), List.getElem?_eq_getElem (by unfold charIndices; rw [charIndicesFrom_length]; omega)]
    have h1 := sliceTo_append (a := s.take 25) (b := s.drop 25)
    rw [List.take_append_drop] at h1
    have h2 := sliceFrom_append (a := s.take (s.length - 25)) (b := s.drop (s.length - 25))
    rw [List.take_append_drop] at h2
    have h3 : (charIndices s).length - 1 - 24 = s.length - 25 := by unfold charIndices; rw [charIndicesFrom_length]; omega
    simp only [Option.map_some, Option.bind_eq_bind, Option.bind_some, h1, h3, h2]

theorem bytesSlice_eq {bs : Bytes} {i j : Nat} (h1 : i ≤ j) (h2 : j ≤ bs.length) : bytesSlice bs i j = some ((bs.take j).drop i) := if_pos ⟨h1, h2⟩

theorem find_range {p : Nat → Bool} : ∀ {n : Nat}, p 0 = true → ∃ k, (List.range (n + 1)).reverse.find? p = some k ∧ k ≤ n ∧ p k = true ∧ ∀ j, j ≤ n → p j = true → j ≤ k := by
  intro n
  induction n with
  | zero =>
    intro h
    refine ⟨0, ?_, Nat.le_refl _, h, fun _ h _ => h⟩
    rw [show (List.range (0 + 1)).reverse = [0] from rfl, List.find?_cons, h]
  | succ n ih =>
    intro h
    rw [List.range_succ, List.reverse_append]
    change ∃ k, List.find? p ((n + 1) :: (List.range (n + 1)).reverse) = _ ∧ _
    rw [List.find?_cons]
    cases hp : p (n + 1) with
    | true => exact ⟨n + 1, rfl, Nat.le_refl _, hp, fun _ h _ => h⟩
    | false =>
      obtain ⟨k, h1, h2, h3, h4⟩ := ih h
      refine ⟨k, h1, by omega, h3, fun j hj hpj => ?_⟩
      by_cases he : j = n + 1
      · subst he; rw [hp] at hpj; cases hpj
      · exact h4 j (by omega) hpj

theorem validUpTo_spec (bs : Bytes) : ∃ t rest, bs = enc t ++ rest ∧ validUpTo bs = (enc t).length ∧ NoChar rest := by
  obtain ⟨k, h1, h2, h3, h4⟩ := find_range (p := fun n => (decodeUtf8 (bs.take n)).isSome) (n := bs.length) rfl
  obtain ⟨t, ht⟩ := Option.isSome_iff_exists.1 h3
  rw [decodeUtf8_eq_some_iff] at ht
  have hk : k = (enc t).length := by rw [← ht, List.length_take]; omega
  refine ⟨t, bs.drop k, ?_, ?_, ?_⟩
  · rw [← ht, List.take_append_drop]
  · unfold validUpTo; rw [h1]; exact hk
  · intro c r hr
    have hb : bs = enc (t ++ [c]) ++ r := by rw [enc_append, ← ht, List.append_assoc, ← hr, List.take_append_drop]
    have hle := h4 (enc (t ++ [c])).length (by rw [hb, List.length_append]; omega)
      (by rw [hb, List.take_left, decodeUtf8_enc]; rfl)
    rw [enc_append, List.length_append, enc_length_cons] at hle
    have := lenUtf8_pos c
    omega

theorem strLen_ge (t : Text) : t.length ≤ (enc t).length := by
  induction t with
  | nil => exact Nat.le_refl _
  | cons c t ih => rw [enc_length_cons, List.length_cons]; have := lenUtf8_pos c; omega

theorem enc_ne_nil {t : Text} (h : t ≠ []) : enc t ≠ [] := by
  intro h0
  have := strLen_ge t
  rw [h0] at this
  exact h (List.length_eq_zero_iff.1 (Nat.le_zero.1 this))

theorem noChar_nil : NoChar [] := by
  intro c r h
  have := congrArg List.length h
  rw [List.length_append, enc_length_cons] at this
  have := lenUtf8_pos c
  simp only [List.length_nil] at *
  omega

theorem readerBuf_spec {N : Nat} {dbg : Bool} (r : BufSrcD N dbg) (h1 : r.bufPos ≤ r.bufEndPos) (h2 : r.bufEndPos ≤ r.buf.length) :
    (r.reachedEof = true ∧ readerBuf r = some .reachedEof) ∨
    (r.reachedEof = false ∧ ∃ count str raw, readerBuf r = some (.buf count str raw) ∧ ShowsStart ((r.buf.take r.bufEndPos).drop r.bufPos) count str raw) := by
  unfold readerBuf
  cases hr : r.reachedEof with
  | true => exact .inl ⟨rfl, rfl⟩
  | false =>
    refine .inr ⟨rfl, ?_⟩
    rw [if_neg (by decide), if_neg (by omega), bytesSlice_eq h1 h2]
    simp only [Option.bind_eq_bind, Option.bind_some]
    have hl : r.bufEndPos - r.bufPos = ((r.buf.take r.bufEndPos).drop r.bufPos).length := by simp only [List.length_drop, List.length_take]; omega
    rw [hl]
    generalize (r.buf.take r.bufEndPos).drop r.bufPos = content
    cases hd : decodeUtf8 content with
    | some s =>
      rw [decodeUtf8_eq_some_iff] at hd
      dsimp only
      rw [limitStr_eq]
      refine ⟨_, _, _, rfl, rfl, s.take 45, enc (s.drop 45), ?_, ?_, ?_, ?_, ?_⟩
      · rw [← enc_append, List.take_append_drop, hd]
      · rw [List.length_take]; omega
      · intro h
        rw [List.length_take] at h
        rw [List.drop_eq_nil_of_le (by omega)]
        exact noChar_nil
      · by_cases h : 45 < s.length
        · rw [if_pos ⟨rfl, h⟩, if_neg (enc_ne_nil (by rw [Ne, List.drop_eq_nil_iff]; omega))]; rfl
        · rw [if_neg (fun h' => h h'.2), if_pos (by rw [List.drop_eq_nil_of_le (by omega)]; rfl)]
      · rw [if_neg]
        rintro ⟨h3, h4⟩
        have h5 := strLen_ge (s.take 45)
        rw [List.length_take] at h5
        apply h3
        rw [List.drop_eq_nil_of_le (by omega)]
        rfl
    | none =>
      obtain ⟨t, rest, hc, hv, hn⟩ := validUpTo_spec content
      have hrest : rest ≠ [] := by
        rintro rfl
        rw [List.append_nil] at hc
        rw [hc, decodeUtf8_enc] at hd
        cases hd
      dsimp only
      have hcl : content.length = (enc t).length + rest.length := by rw [hc, List.length_append]
      rw [hv, bytesSlice_eq (Nat.zero_le _) (by omega)]
      have ht : (content.take (enc t).length).drop 0 = enc t := by rw [hc, List.take_left, List.drop_zero]
      simp only [Option.bind_some, ht, decodeUtf8_enc, limitStr_eq]
      rw [if_neg (c := false = true ∧ 45 < t.length) (fun h => by cases h.1), List.append_nil]
      by_cases hlen : strLen (t.take 45) < 15
      · have hs : (t.take 45).length < 15 := Nat.lt_of_le_of_lt (strLen_ge _) hlen
        rw [List.length_take] at hs
        have htk : t.take 45 = t := List.take_of_length_le (by omega)
        rw [if_pos hlen, bytesSlice_eq (by omega) (by omega)]
        refine ⟨_, _, _, rfl, rfl, t, rest, hc, by omega, fun _ => hn, ?_, ?_⟩
        · rw [if_neg hrest, htk]; rfl
        · rw [htk] at hlen
          rw [if_pos ⟨hrest, hlen⟩]
          congr 1
          rw [List.drop_take, hc, List.drop_left]
          rw [List.length_append]
          rw [show min ((enc t).length + 30) ((enc t).length + rest.length) - (enc t).length = min 30 rest.length by omega]
          by_cases h30 : 30 ≤ rest.length
          · rw [Nat.min_eq_left h30]
          · rw [Nat.min_eq_right (by omega), List.take_of_length_le (Nat.le_refl _), List.take_of_length_le (by omega)]
      · rw [if_neg hlen]
        refine ⟨_, _, _, rfl, rfl, t.take 45, enc (t.drop 45) ++ rest, ?_, ?_, ?_, ?_, ?_⟩
        · rw [← List.append_assoc, ← enc_append, List.take_append_drop, hc]
        · rw [List.length_take]; omega
        · intro h
          rw [List.length_take] at h
          rw [List.drop_eq_nil_of_le (by omega)]
          exact hn
        · rw [if_neg (by simp [hrest])]; rfl
        · rw [if_neg (fun h => hlen h.2)]

theorem searchSuffix_spec (k : Writer.BufSink) (hk : k.pos ≤ k.buf.length) : ∀ {n i : Nat}, i + n = k.pos ∨ (n = 0 ∧ k.pos ≤ i) →
    (searchSuffix k n i = some none ∧ ∀ j, i ≤ j → j < i + n → decodeUtf8 ((k.buf.take k.pos).drop j) = none) ∨
    ∃ m t, searchSuffix k n i = some (some (m, ellipsis ++ shorten t)) ∧ i ≤ m ∧ m < k.pos ∧ (k.buf.take k.pos).drop m = enc t ∧
      ∀ j, i ≤ j → j < m → decodeUtf8 ((k.buf.take k.pos).drop j) = none := by
  intro n
  induction n with
  | zero => intro i _; exact .inl ⟨rfl, fun j h1 h2 => by omega⟩
  | succ n ih =>
    intro i hi
    have hi : i + (n + 1) = k.pos := by omega
    unfold searchSuffix
    rw [bytesSlice_eq (by omega) hk]
    simp only [Option.bind_eq_bind, Option.bind_some]
    cases hd : decodeUtf8 ((k.buf.take k.pos).drop i) with
    | some t =>
      refine .inr ⟨i, t, ?_, Nat.le_refl _, by omega, decodeUtf8_eq_some_iff.1 hd, fun j h1 h2 => by omega⟩
      dsimp only
      rw [limitStrMiddle_eq]
      rfl
    | none =>
      dsimp only
      rcases ih (i := i + 1) (by omega) with ⟨h1, h2⟩ | ⟨m, t, h1, h2, h3, h4, h5⟩
      · refine .inl ⟨h1, fun j hj1 hj2 => ?_⟩
        by_cases h : j = i
        · rw [h, hd]
        · exact h2 j (by omega) (by omega)
      · refine .inr ⟨m, t, h1, by omega, h3, h4, fun j hj1 hj2 => ?_⟩
        by_cases h : j = i
        · rw [h, hd]
        · exact h5 j (by omega) hj2

theorem writerBuf_spec (k : Writer.BufSink) (hk : k.pos ≤ k.buf.length) : ∃ b, writerBuf k = some b ∧ ShowsEnd (k.buf.take k.pos) b.count b.raw b.str := by
  have hl : (k.buf.take k.pos).length = k.pos := by rw [List.length_take]; omega
  unfold writerBuf
  rw [bytesSlice_eq (Nat.zero_le _) hk, List.drop_zero]
  simp only [Option.bind_eq_bind, Option.bind_some]
  cases hd : decodeUtf8 (k.buf.take k.pos) with
  | some t =>
    dsimp only
    rw [limitStrMiddle_eq]
    exact ⟨_, rfl, hl.symm, t, decodeUtf8_eq_some_iff.1 hd, rfl⟩
  | none =>
    have hpos : 0 < k.pos := by
      rcases Nat.eq_zero_or_pos k.pos with h | h
      · rw [h] at hd; cases hd
      · exact h
    have hnv : ¬ ValidUtf8 (k.buf.take k.pos) := by
      rintro ⟨t, ht⟩
      rw [ht, decodeUtf8_enc] at hd
      cases hd
    have key : ∀ {m : Nat}, (∀ j, 1 ≤ j → j < m → decodeUtf8 ((k.buf.take k.pos).drop j) = none) → ∀ r' t', r' ≠ [] → k.buf.take k.pos = r' ++ enc t' → m ≤ r'.length := by
      intro m h r' t' hr' hc
      rcases Nat.lt_or_ge r'.length m with hlt | hge
      · have := h r'.length (List.length_pos_iff.2 hr') hlt
        rw [hc, List.drop_left, decodeUtf8_enc] at this
        cases this
      · exact hge
    dsimp only
    rcases searchSuffix_spec k hk (n := k.pos - 1) (i := 1) (by omega) with ⟨h1, h2⟩ | ⟨m, t, h1, h2, h3, h4, h5⟩
    · rw [h1]
      dsimp only [Option.bind_some]
      rw [bytesSlice_eq (Nat.zero_le _) hk, List.drop_zero]
      refine ⟨_, rfl, hl.symm, hnv, [], by rw [enc_nil, List.append_nil], rfl, ?_⟩
      rw [hl]
      exact key fun j hj1 hj2 => h2 j hj1 (by omega)
    · rw [h1]
      dsimp only [Option.bind_some]
      rw [bytesSlice_eq (Nat.zero_le _) (by omega), List.drop_zero]
      refine ⟨_, rfl, hl.symm, hnv, t, ?_, rfl, ?_⟩
      · rw [← h4]
        have := List.take_append_drop m (k.buf.take k.pos)
        rw [List.take_take, Nat.min_eq_left (by omega)] at this
        exact this.symm
      · rw [List.length_take, Nat.min_eq_left (by omega)]
        exact key h5

end Verif.Debug

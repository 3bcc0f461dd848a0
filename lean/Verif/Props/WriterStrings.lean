import Verif.Proofs.Writer.Sticky
import Verif.Props.Writer
/-!
# Writing strings and numbers
-/

namespace Verif.Props
open Writer WSpec Json

variable {N : Nat} {st : WSettings} {sink sink' : Sink}

/-! ## String literals -/

/-- Bytes of a string literal: every character is written as one item of the grammar which denotes it; it is written unchanged (as UTF-8) if and only if it does
not have to be escaped. -/
def LiteralOf (st : WSettings) (t : Text) (bs : Bytes) : Prop :=
  ∃ items : List StrItem, ItemsAre items t ∧ bs = 0x22 :: (items.flatMap StrItem.bytes ++ [0x22]) ∧
    ∀ i (h : i < t.length) (h' : i < items.length), items[i] = .char t[i] ↔ ¬ mustEscape st t[i]

theorem escape_ne_char (c d : Char) : escape c ≠ .char d := by
  unfold escape
  repeat' split
  all_goals exact nofun

theorem literalOf (t : Text) : LiteralOf st t (strLit st t).bytes := by
  refine ⟨t.map (item st), strLit_ok t, rfl, fun i h h' => ?_⟩
  rw [List.getElem_map, item]
  split
  · rename_i hm
    exact ⟨fun h => absurd h (escape_ne_char _ _), fun h => absurd hm h⟩
  · rename_i hm
    exact ⟨fun _ => hm, fun _ => rfl⟩

/-- C34: in every state in which a value is allowed, `string_value` appends the separator which is needed there, and the literal. -/
theorem C34_string_literal (pre : List WOp) (hfin : .finishDocument ∉ pre) (hop : ∀ op ∈ pre, OpOk op) {w : Written} (hs : Steps st .empty pre w) (hc : w.CanAdd st) (t : Text) :
    ∃ literal, LiteralOf st t literal ∧ emitted st (pre ++ [.stringValue t]) = emitted st pre ++ (lead st w.tops w.frames ++ literal) := by
  refine ⟨_, literalOf t, ?_⟩
  obtain ⟨c, rs, w', hl, hok, hi, hr, he, hb⟩ := reach st hfin hop hs
  have hw := like_eq hl hc.1
  subst hw
  rw [emitted_append hfin he hr]
  cases wop_outcome hi hok (.stringValue t) trivial with
  | done w' out bs c' h1 h2 h3 h4 h5 h6 =>
    have := like_eq (step_unique (.value hc (.string t)) h1) (by obtain ⟨tops, frames, str⟩ := w; obtain ⟨rfl, _⟩ := hc; unfold Written.add; dsimp only; split <;> rfl)
    subst this
    rw [add_bytes hc, List.append_right_inj] at h3
    have := wops_cons_ok (os := []) (by nofun) h2 (by rw [wops]; exact emits_pure)
    unfold Emits at this
    rw [this, ← h3, cst]
    simp [Cst.bytes]
  | rejected h => cases h
  | panic u h1 h2 => exact absurd ⟨_, .value hc (.string t)⟩ h2

/-- C34 for member names -/
theorem C34_name_literal (pre : List WOp) (hfin : .finishDocument ∉ pre) (hop : ∀ op ∈ pre, OpOk op) {tops : List JVal} {ms : List (Text × JVal)} {fs : List Frame}
    (hs : Steps st .empty pre ⟨tops, .obj ms none :: fs, none⟩) (n : Text) :
    ∃ literal, LiteralOf st n literal ∧
      emitted st (pre ++ [.name n]) = emitted st pre ++ ((sep st fs.length ms.isEmpty).bytes ++ (literal ++ (0x3A :: (colonWs st).bytes))) := by
  refine ⟨_, literalOf n, ?_⟩
  obtain ⟨c, rs, w', hl, hok, hi, hr, he, hb⟩ := reach st hfin hop hs
  have hw := like_eq hl rfl
  subst hw
  rw [emitted_append hfin he hr]
  cases wop_outcome hi hok (.name n) trivial with
  | done w' out bs c' h1 h2 h3 h4 h5 h6 =>
    have := like_eq (step_unique (.name) h1) rfl
    subst this
    have := wops_cons_ok (os := []) (by nofun) h2 (by rw [wops]; exact emits_pure)
    unfold Emits at this
    rw [this]
    rw [Written.bytes, Written.bytes, framesBytes, framesBytes, Frame.bytes, Frame.bytes] at h3
    simp only [List.append_nil, List.append_assoc, List.cons_append, List.append_cancel_left_eq, List.cons.injEq, true_and] at h3
    rw [← h3, List.append_nil]
  | rejected h => cases h
  | panic u h1 h2 => exact absurd ⟨_, .name⟩ h2

/-- `a"é` followed by a line break and U+0080, with different settings -/
example : let r st := (execW 8 st ⟨[], [], []⟩ [.stringValue ['a', '"', 'é', '\n', Char.ofNat 0x80], .finishDocument]).2.received
    r WSettings.default = [0x22, 0x61, 0x5C, 0x22, 0xC3, 0xA9, 0x5C, 0x6E, 0xC2, 0x80, 0x22] ∧
    r ⟨false, true, false, none⟩ = [0x22, 0x61, 0x5C, 0x22, 0xC3, 0xA9, 0x5C, 0x6E, 0x5C, 0x75, 0x30, 0x30, 0x38, 0x30, 0x22] ∧
    r ⟨false, false, true, none⟩ = [0x22, 0x61, 0x5C, 0x22, 0x5C, 0x75, 0x30, 0x30, 0x45, 0x39, 0x5C, 0x6E, 0x5C, 0x75, 0x30, 0x30, 0x38, 0x30, 0x22] := by
  decide +kernel

theorem utf8_ascii {c : Char} (h : c.toNat < 0x80) : ∀ b ∈ String.utf8EncodeChar c, b.toNat < 0x80 := by
  rw [enc_digit h]
  intro b hb
  rw [List.mem_singleton.1 hb, UInt8.toNat_ofNat']
  omega

theorem hexDigit_ascii {b : UInt8} {n : Nat} (h : hexVal b = some n) : b.toNat < 0x80 := by
  have : ∀ b : UInt8, (hexVal b).isSome = true → b.toNat < 0x80 := by
    intro b hb
    refine Utf8.forallByte (P := fun b => (hexVal b).isSome = true → b.toNat < 0x80) ?_ b hb
    decide +kernel
  exact this b (by rw [h]; rfl)

theorem shortEscape_ascii {b : UInt8} {c : Char} (h : shortEscape b = some c) : b.toNat < 0x80 := by
  have : ∀ b : UInt8, (shortEscape b).isSome = true → b.toNat < 0x80 := by
    intro b hb
    refine Utf8.forallByte (P := fun b => (shortEscape b).isSome = true → b.toNat < 0x80) ?_ b hb
    decide +kernel
  exact this b (by rw [h]; rfl)

theorem hex4_ascii {h : Hex4} {n : Nat} (hn : h.Is n) : ∀ b ∈ h.bytes, b.toNat < 0x80 := by
  obtain ⟨a, b, c, d, h1, h2, h3, h4, _⟩ := hn
  intro x hx
  simp only [Hex4.bytes, List.mem_cons, List.not_mem_nil, or_false] at hx
  rcases hx with rfl | rfl | rfl | rfl
  · exact hexDigit_ascii h1
  · exact hexDigit_ascii h2
  · exact hexDigit_ascii h3
  · exact hexDigit_ascii h4

theorem item_ascii {i : StrItem} {c : Char} (h : i.Is c) (hc : i = .char c → c.toNat < 0x80) : ∀ b ∈ i.bytes, b.toNat < 0x80 := by
  cases h with
  | char c h1 h2 h3 => exact utf8_ascii (hc rfl)
  | short b c h1 =>
    intro b' hb
    rcases List.mem_cons.1 hb with rfl | hb
    · decide
    · rw [List.mem_singleton.1 hb]; exact shortEscape_ascii h1
  | unicode h c h1 =>
    intro b' hb
    rcases List.mem_append.1 hb with hb | hb
    · simp at hb; rcases hb with rfl | rfl <;> decide
    · exact hex4_ascii h1 _ hb
  | pair hi lo a b c h1 h2 =>
    intro b' hb
    simp only [StrItem.bytes, List.mem_append] at hb
    rcases hb with ((hb | hb) | hb) | hb
    · simp at hb; rcases hb with rfl | rfl <;> decide
    · exact hex4_ascii h1 _ hb
    · simp at hb; rcases hb with rfl | rfl <;> decide
    · exact hex4_ascii h2 _ hb

theorem itemsAre_get {items : List StrItem} {t : Text} (h : ItemsAre items t) : items.length = t.length ∧ ∀ i (h1 : i < items.length) (h2 : i < t.length), (items[i]).Is t[i] := by
  induction h with
  | nil => exact ⟨rfl, fun i h => absurd h (Nat.not_lt_zero _)⟩
  | cons h _ ih =>
    refine ⟨by simp [ih.1], fun i h1 h2 => ?_⟩
    cases i with
    | zero => exact h
    | succ i => exact ih.2 i (by simpa using h1) (by simpa using h2)

/-- C34: with `escape_all_non_ascii` the literal is pure ASCII -/
theorem C34_ascii (ha : st.escapeAllNonAscii = true) {t : Text} {bs : Bytes} (h : LiteralOf st t bs) : ∀ b ∈ bs, b.toNat < 0x80 := by
  obtain ⟨items, h1, rfl, h2⟩ := h
  obtain ⟨hl, hi⟩ := itemsAre_get h1
  intro b hb
  rcases List.mem_cons.1 hb with rfl | hb
  · decide
  rcases List.mem_append.1 hb with hb | hb
  · obtain ⟨it, hit, hb⟩ := List.mem_flatMap.1 hb
    obtain ⟨i, hlt, rfl⟩ := List.getElem_of_mem hit
    refine item_ascii (hi i hlt (hl ▸ hlt)) (fun he => ?_) b hb
    have := (h2 i (hl ▸ hlt) hlt).1 he
    exact Nat.lt_of_not_le fun hge => this (.inr (.inr (.inr (.inl ⟨ha, hge⟩))))
  · rw [List.mem_singleton.1 hb]; decide

/-- C34: always escaped, and with `escape_all_control_chars`: control characters are not written unchanged; everything else is, without
`escape_all_non_ascii` -/
theorem C34_escaped (st : WSettings) (c : Char) :
    ((c = '"' ∨ c = '\\' ∨ c.toNat < 0x20) → mustEscape st c) ∧
    (st.escapeAllControlChars = true → (0x7F ≤ c.toNat ∧ c.toNat ≤ 0x9F) → mustEscape st c) ∧
    (st.escapeAllNonAscii = false → c ≠ '"' → c ≠ '\\' → 0x20 ≤ c.toNat → (st.escapeAllControlChars = true → ¬ (0x7F ≤ c.toNat ∧ c.toNat ≤ 0x9F)) → ¬ mustEscape st c) := by
  unfold mustEscape
  refine ⟨?_, fun h1 h2 => .inr (.inr (.inr (.inr ⟨h1, .inr h2⟩))), ?_⟩
  · rintro (h | h | h)
    · exact .inl h
    · exact .inr (.inl h)
    · exact .inr (.inr (.inl h))
  · rintro h1 h2 h3 h4 h5 (h | h | h | ⟨h, _⟩ | ⟨h, h6 | h6⟩)
    · exact h2 h
    · exact h3 h
    · omega
    · rw [h1] at h; cases h
    · omega
    · exact h5 h h6

/-- a literal with two characters -/
example : LiteralOf ⟨false, false, true, none⟩ ['a', 'é'] [0x22, 0x61, 0x5C, 0x75, 0x30, 0x30, 0x45, 0x39, 0x22] := literalOf ['a', 'é']

/-! ## The string value writer -/

theorem resOks_length {ops : List WOp} {rs : List (Except WErr WOut)} (h : ResOks ops rs) : rs.length = ops.length := by
  induction ops generalizing rs with
  | nil => cases rs with
    | nil => rfl
    | cons _ _ => exact h.elim
  | cons o os ih => cases rs with
    | nil => exact h.elim
    | cons r rs => simp [ih h.2]

/-- C35: writing a text in arbitrary pieces is the same as `string_value` with the text: all bytes are the same, whatever is written before and afterwards, and
the results of all other calls. -/
theorem C35_split (pre post : List WOp) (hfin : .finishDocument ∉ pre) (hop : ∀ op ∈ pre, OpOk op) {w : Written} (hs : Steps st .empty pre w) (hc : w.CanAdd st)
    {ops : List SvOp} {t : Text} (hw : SvWrites ops t) :
    emitted st (pre ++ .stringValueWriter ops true :: post) = emitted st (pre ++ .stringValue t :: post) ∧
    (∀ rs, results st (pre ++ .stringValue t :: post) = .ok rs → ∃ a b, rs = a ++ .ok .unit :: b ∧ a.length = pre.length ∧
      results st (pre ++ .stringValueWriter ops true :: post) = .ok (a ++ .ok (.string (ops.map fun o => .ok (svOk o)) (some (.ok ()))) :: b)) ∧
    (∀ p, results st (pre ++ .stringValue t :: post) = .error p → results st (pre ++ .stringValueWriter ops true :: post) = .error p) := by
  obtain ⟨c, rs, w', hl, hok, hi, hr, he, hb⟩ := reach st hfin hop hs
  have hww := like_eq hl hc.1
  subst hww
  have hadd : ∀ v, (w.add v).str = none := by
    obtain ⟨tops, frames, str⟩ := w; obtain ⟨rfl, _⟩ := hc; intro v; unfold Written.add; dsimp only; split <;> rfl
  rw [emitted_append hfin he hr, emitted_append hfin he hr, results_append hfin he hr, results_append hfin he hr]
  rcases string_outcome hi hc ops with ⟨t', c1, hw', h1, h2, _⟩ | ⟨_, _, _, _, hno, _⟩
  · have : t' = t := by
      have := denotes_unique (.stringWriter ops t hw) (.stringWriter ops t' hw')
      injection this with this
      exact this.symm
    subst this
    cases wop_outcome hi hok (.stringValue t') trivial with
    | done w' out bs c' s1 s2 s3 s4 s5 s6 =>
      have := like_eq (step_unique (.value hc (.string t')) s1) (hadd _)
      subst this
      have hcc := WInv.unique h2 s4 (hadd _)
      subst hcc
      rw [add_bytes hc, List.append_right_inj] at s3
      have hbs : bs = lead st w.tops w.frames ++ (strLit st t').bytes := by rw [← s3, cst]; rfl
      subst hbs
      have hout : out = .unit := by
        rcases s6 with h | ⟨_, _, h⟩
        · exact h
        · cases h
      subst hout
      rw [wops_cons_eq (by nofun) h1, wops_cons_eq (by nofun) s2]
      have hlen : rs.length = pre.length := resOks_length hr
      rcases ((wops post).run c1).ideal with ⟨p | ⟨y | y, c2⟩, b2⟩
      · exact ⟨rfl, fun _ h => (by cases h), fun _ h => h⟩
      · exact nomatch y
      · refine ⟨rfl, fun rs' h => ⟨rs, y, ?_, hlen, rfl⟩, fun _ h => by cases h⟩
        injection h with h
        exact h.symm
    | rejected h => cases h
    | panic u h1 h2 => exact absurd ⟨_, .value hc (.string t')⟩ h2
  · exact absurd ⟨t, hw⟩ hno

/-- the euro sign in three pieces, with `write_str` behind it -/
example : SvWrites [.write [0xE2], .write [0x82], .flush, .write [0xAC, 0x61], .writeStr ['b']] ['€', 'a', 'b'] := by
  refine ⟨by decide +kernel, ?_⟩
  intro pre t post h
  refine ⟨['€', 'a'], ?_⟩
  match pre, h with
  | [a, b, c, d], h => simp only [List.cons_append, List.nil_append, List.cons.injEq] at h; obtain ⟨rfl, rfl, rfl, rfl, -⟩ := h; decide +kernel
  | [], h => simp at h
  | [a], h => simp at h
  | [a, b], h => simp at h
  | [a, b, c], h => simp at h
  | a :: b :: c :: d :: e :: f, h => simp at h

/-- C36: `finish_value` succeeds if and only if the bytes are a valid UTF-8 text (where `write_str` was only called between two characters), and then all
calls before were successful; otherwise the calls before are successful up to one which fails, and the ones behind it fail too, or all are successful and the
data is incomplete. In any case nothing but the literal of the text, or its beginning, consisting of complete characters of the data, is written. -/
theorem C36_invalid_utf8 (pre : List WOp) (hfin : .finishDocument ∉ pre) (hop : ∀ op ∈ pre, OpOk op) {w : Written} (hs : Steps st .empty pre w) (hc : w.CanAdd st) (ops : List SvOp) :
    ∃ before xs f out, results st (pre ++ [.stringValueWriter ops true]) = .ok (before ++ [.ok (.string xs (some f))]) ∧ before.length = pre.length ∧ xs.length = ops.length ∧
      emitted st (pre ++ [.stringValueWriter ops true]) = emitted st pre ++ (lead st w.tops w.frames ++ out) ∧
      ((∃ t, SvWrites ops t ∧ f = .ok () ∧ (∀ x ∈ xs, ∃ n, x = .ok n) ∧ LiteralOf st t out) ∨
        ((¬ ∃ t, SvWrites ops t) ∧ (∃ e, f = .error e) ∧ (∃ t, enc t <+: svData ops ∧ LiteralOf st t (out ++ [0x22])) ∧
          ((∀ x ∈ xs, ∃ n, x = .ok n) ∨ ∃ k, k < xs.length ∧ (∀ x ∈ xs.take k, ∃ n, x = .ok n) ∧ ∀ x ∈ xs.drop k, ∃ e, x = .error e))) := by
  obtain ⟨c, rs, w', hl, hok, hi, hr, he, hb⟩ := reach st hfin hop hs
  have hww := like_eq hl hc.1
  subst hww
  rw [emitted_append hfin he hr, results_append hfin he hr]
  rcases string_outcome hi hc ops with ⟨t, c1, hw, h1, h2, _⟩ | ⟨t, c1, xs, e, hno, hpre, h1, h2, h3, h4⟩
  · rw [wops_cons_eq (by nofun) h1]
    refine ⟨rs, _, _, _, rfl, resOks_length hr, by simp, ?_, .inl ⟨t, hw, rfl, ?_, literalOf t⟩⟩
    · rw [wops]; exact congrArg _ (List.append_nil _)
    · intro x hx; obtain ⟨o, _, rfl⟩ := List.mem_map.1 hx; exact ⟨_, rfl⟩
  · rw [wops_cons_eq (by nofun) h2]
    refine ⟨rs, xs, _, 0x22 :: (strLit st t).body, rfl, resOks_length hr, ?_, ?_, .inr ⟨hno, ⟨e, rfl⟩, ⟨t, hpre, literalOf t⟩, ?_⟩⟩
    · rcases h4 with ⟨rfl, _⟩ | ⟨k, e', hk, rfl, _⟩
      · simp
      · simp [svFailed]; omega
    · rw [wops]; exact congrArg _ (List.append_nil _)
    · rcases h4 with ⟨rfl, _⟩ | ⟨k, e', hk, rfl, _⟩
      · left; intro x hx; obtain ⟨o, _, rfl⟩ := List.mem_map.1 hx; exact ⟨_, rfl⟩
      · right
        have hlen : ((ops.take k).map fun o => (Except.ok (svOk o) : Except WErr Nat)).length = k := by simp; omega
        refine ⟨k, by simp [svFailed]; omega, ?_, ?_⟩
        · intro x hx
          rw [svFailed, List.take_append_of_le_length (by rw [hlen]; exact Nat.le_refl _), List.take_of_length_le (by rw [hlen]; exact Nat.le_refl _)] at hx
          obtain ⟨o, _, rfl⟩ := List.mem_map.1 hx; exact ⟨_, rfl⟩
        · intro x hx
          rw [svFailed, List.drop_append_of_le_length (by rw [hlen]; exact Nat.le_refl _), List.drop_of_length_le (by rw [hlen]; exact Nat.le_refl _), List.nil_append] at hx
          rcases List.mem_cons.1 hx with rfl | hx
          · exact ⟨_, rfl⟩
          · obtain ⟨o, _, rfl⟩ := List.mem_map.1 hx; exact ⟨_, rfl⟩

/-- an invalid byte, and an incomplete character -/
example : (match (execW 8 WSettings.default ⟨[], [], []⟩ [.stringValueWriter [.write [0x61], .write [0xFF], .write [0x62]] true]).1 with
      | .ok [.ok (.string [.ok 1, .error .invalidUtf8, .error (.previous .invalidUtf8)] (some (.error _)))] => true | _ => false) = true ∧
    (match (execW 8 WSettings.default ⟨[], [], []⟩ [.stringValueWriter [.write [0x61, 0xE2], .flush] true]).1 with
      | .ok [.ok (.string [.ok 2, .ok 0] (some (.error .incompleteUtf8)))] => true | _ => false) = true ∧
    (execW 8 WSettings.default ⟨[], [], []⟩ [.stringValueWriter [.write [0x61, 0xE2], .flush] true]).2.received = [0x22, 0x61] := by
  decide +kernel

/-- C37: whatever the underlying `Write` does: after a failed call of a string value writer all later calls fail, and so does `finish_value`. -/
theorem C37_sticky (N : Nat) (st : WSettings) (sink : Sink) (ops : List WOp) {rs : List (Except WErr WOut)} (h : (execW N st sink ops).1 = .ok rs)
    {xs : List (Except WErr Nat)} {f : Option (Except WErr Unit)} (hx : .ok (.string xs f) ∈ rs) :
    (∀ i j (hi : i < xs.length) (hj : j < xs.length), i < j → (∃ e, xs[i] = .error e) → ∃ e, xs[j] = .error e) ∧
    ((∃ x ∈ xs, ∃ e, x = .error e) → f ≠ some (.ok ())) := by
  have := exec_all (sticky_wops ops (Core.new st)) h
  obtain ⟨h1, h2⟩ := this _ hx _ _ rfl
  exact ⟨sticky_get h1, h2⟩

/-- the second call fails because the underlying `Write` does -/
example : (match (execW 3 WSettings.default ⟨[], [.error 3], []⟩ [.stringValueWriter [.write [0x61], .write [0x62], .write []] true]).1 with
      | .ok [.ok (.string [.ok 1, .error (.io 3), .error (.previous (.io 3))] (some (.error (.previous (.io 3)))))] => true | _ => false) = true := by
  decide +kernel

/-! ## Numbers -/

theorem C40_emits (pre : List WOp) (hfin : .finishDocument ∉ pre) (hop : ∀ op ∈ pre, OpOk op) {w : Written} (hs : Steps st .empty pre w) (hc : w.CanAdd st) (ty : IntTy) (i : Int) :
    ∃ t, IsInteger t i ∧ emitted st (pre ++ [.numberValue (.int ty i)]) = emitted st pre ++ (lead st w.tops w.frames ++ enc t) := by
  refine ⟨intToString i, intToString_isInteger i, ?_⟩
  obtain ⟨c, rs, w', hl, hok, hi, hr, he, hb⟩ := reach st hfin hop hs
  have hw := like_eq hl hc.1
  subst hw
  rw [emitted_append hfin he hr]
  have hden := Denotes.int ty i _ (intToString_isInteger i)
  cases wop_outcome hi hok (.numberValue (.int ty i)) trivial with
  | done w' out bs c' h1 h2 h3 h4 h5 h6 =>
    have := like_eq (step_unique (.value hc hden) h1) (by obtain ⟨tops, frames, str⟩ := w; obtain ⟨rfl, _⟩ := hc; unfold Written.add; dsimp only; split <;> rfl)
    subst this
    rw [add_bytes hc, List.append_right_inj] at h3
    rw [wops_cons_eq (by nofun) h2, ← h3, cst, wops]
    exact congrArg _ (List.append_nil _)
  | rejected h => cases h
  | panic u h1 h2 => exact absurd ⟨_, .value hc hden⟩ h2

theorem isDecimal_value {ds : Text} {n m : Nat} (h : IsDecimal ds n) (h' : IsDecimal ds m) : n = m := h.2.1.symm.trans h'.2.1

theorem isInteger_value {t : Text} {i j : Int} (h : IsInteger t i) (h' : IsInteger t j) : i = j := by
  have hno : ∀ {ds : Text} {n : Nat}, ¬ IsDecimal ('-' :: ds) n := fun h => absurd (h.1 '-' (List.mem_cons_self ..)).1 (by decide)
  rcases h with ⟨h1, h2⟩ | ⟨h1, ds, rfl, h2⟩ <;> rcases h' with ⟨h3, h4⟩ | ⟨h3, ds', h5, h4⟩
  · have := isDecimal_value h2 h4; omega
  · subst h5; exact absurd h2 hno
  · exact absurd h4 hno
  · injection h5 with _ h5
    subst h5
    have := isDecimal_value h2 h4; omega

/-- C40: an integer of any type is written as its canonical decimal text, which is the only one; it is a JSON number, and it denotes no other integer.
`as_u64` and `as_i64` return the number if and only if it fits. -/
theorem C40_integers (pre : List WOp) (hfin : .finishDocument ∉ pre) (hop : ∀ op ∈ pre, OpOk op) {w : Written} (hs : Steps st .empty pre w) (hc : w.CanAdd st) (ty : IntTy) (i : Int) :
    (∃ t, IsInteger t i ∧ IsNumber (enc t) ∧ (∀ t', IsInteger t' i → t' = t) ∧ (∀ j, IsInteger t j → j = i) ∧
      emitted st (pre ++ [.numberValue (.int ty i)]) = emitted st pre ++ (lead st w.tops w.frames ++ enc t)) ∧
    (∀ n, (FinNum.int ty i).asU64 = some n ↔ (n = i ∧ 0 ≤ i ∧ i < 2 ^ 64)) ∧ (∀ n, (FinNum.int ty i).asI64 = some n ↔ (n = i ∧ -2 ^ 63 ≤ i ∧ i < 2 ^ 63)) := by
  obtain ⟨t, h1, h2⟩ := C40_emits pre hfin hop hs hc ty i
  refine ⟨⟨t, h1, isInteger_number h1, fun t' h => isInteger_unique h h1, fun j h => isInteger_value h h1, h2⟩, fun n => ?_, fun n => ?_⟩
  · have : (IntTy.u64.min ≤ i ∧ i ≤ IntTy.u64.max) ↔ (0 ≤ i ∧ i < 2 ^ 64) := by
      show (0 : Int) ≤ i ∧ i ≤ (18446744073709551616 : Int) - 1 ↔ _
      omega
    show (if _ then some i else none) = some n ↔ _
    split
    · rename_i h; rw [this] at h; exact ⟨fun e => by injection e with e; exact ⟨e.symm, h⟩, fun e => by rw [e.1]⟩
    · rename_i h; rw [this] at h; exact ⟨nofun, fun e => absurd e.2 h⟩
  · have : (IntTy.i64.min ≤ i ∧ i ≤ IntTy.i64.max) ↔ (-2 ^ 63 ≤ i ∧ i < 2 ^ 63) := by
      show -(9223372036854775808 : Int) ≤ i ∧ i ≤ (9223372036854775808 : Int) - 1 ↔ _
      omega
    show (if _ then some i else none) = some n ↔ _
    split
    · rename_i h; rw [this] at h; exact ⟨fun e => by injection e with e; exact ⟨e.symm, h⟩, fun e => by rw [e.1]⟩
    · rename_i h; rw [this] at h; exact ⟨nofun, fun e => absurd e.2 h⟩

/-- the smallest 128 bit integer -/
example : (execW 8 WSettings.default ⟨[], [], []⟩ [.numberValue (.int .i16 (-32768)), .finishDocument]).2.received = [0x2D, 0x33, 0x32, 0x37, 0x36, 0x38] ∧
    (FinNum.int .i128 (-(2 ^ 127))).asI64 = none ∧ (FinNum.int .u128 (2 ^ 64 - 1)).asU64 = some (2 ^ 64 - 1) := by
  decide +kernel

/-- C41: when a number is rejected, nothing is written and the state of the writer (whatever it is) is unchanged -/
theorem C41_state {op : WOp} (h : Rejected op) (c : Core) : (wop op).run c = .ret (.error .invalidNumber, c) := by
  cases h with
  | float t => rfl
  | number t h =>
    have : isValid t = false := by
      cases hv : isValid t with
      | false => rfl
      | true => exact absurd ((isValid_iff _).1 hv) h
    show (T.run (numberValueFromString t >>= _) c) = _
    rw [T.run_bind, numberValueFromString, this]
    rfl

/-- C41: a rejected number at any place has no effect on the output, and on the results of the other calls -/
theorem C41_rejected (pre post : List WOp) (hfin : .finishDocument ∉ pre) (hop : ∀ op ∈ pre, OpOk op) {w : Written} (hs : Steps st .empty pre w) {op : WOp} (h : Rejected op) :
    emitted st (pre ++ op :: post) = emitted st (pre ++ post) ∧
    (∀ rs, results st (pre ++ post) = .ok rs → results st (pre ++ op :: post) = .ok (rs.take pre.length ++ .error .invalidNumber :: rs.drop pre.length)) ∧
    (∀ p, results st (pre ++ post) = .error p → results st (pre ++ op :: post) = .error p) := by
  obtain ⟨c, rs, w', hl, hok, hi, hr, he, hb⟩ := reach st hfin hop hs
  have hlen := resOks_length hr
  rw [emitted_append hfin he hr, emitted_append hfin he hr, results_append hfin he hr, results_append hfin he hr]
  have : ((wops (op :: post)).run c).ideal = after [] [.error .invalidNumber] ((wops post).run c).ideal := by
    rw [wops]
    dsimp only
    rw [C41_state h]
    show (Tree.bind ((wops post).run c) _).ideal = _
    rw [ideal_bind]
    rcases ((wops post).run c).ideal with ⟨p | ⟨y | y, c2⟩, b2⟩
    · rfl
    · exact nomatch y
    · simp [after, Tree.ideal]
  rw [this]
  rcases ((wops post).run c).ideal with ⟨p | ⟨y | y, c2⟩, b2⟩
  · exact ⟨rfl, fun _ h => (by cases h), fun _ h => h⟩
  · exact nomatch y
  · refine ⟨rfl, fun rs' h => ?_, fun _ h => by cases h⟩
    injection h with h
    subst h
    rw [← hlen, List.take_left, List.drop_left]
    rfl

theorem resOks_rejected {ops : List WOp} {rs : List (Except WErr WOut)} (h : ResOks ops rs) (i : Nat) (hi : i < ops.length) (hi' : i < rs.length) :
    (∃ e, rs[i] = .error e) ↔ Rejected ops[i] := by
  induction ops generalizing rs i with
  | nil => exact absurd hi (Nat.not_lt_zero _)
  | cons o os ih =>
    match rs, h with
    | r :: rs, h =>
      cases i with
      | zero =>
        rcases h.1 with ⟨h1, h2⟩ | ⟨h1, out, h2, _⟩
        · exact ⟨fun _ => h1, fun _ => ⟨_, h2⟩⟩
        · refine ⟨fun ⟨e, he⟩ => ?_, fun h => absurd h h1⟩
          rw [List.getElem_cons_zero, h2] at he
          cases he
      | succ i => exact ih h.2 i (by simpa using hi) (by simpa using hi')

/-- C41: only numbers are rejected which are not valid -/
theorem C41_only (hN : 0 < N) {ops : List WOp} (hfin : FinishLast ops) (hop : ∀ op ∈ ops, OpOk op) (hrel : sink.Reliable) {rs : List (Except WErr WOut)}
    (h : (execW N st sink ops).1 = .ok rs) (i : Nat) (hi : i < ops.length) (hi' : i < rs.length) : (∃ e, rs[i] = .error e) ↔ Rejected ops[i] := by
  rcases exec_spec hN st sink ops with ⟨h1, _⟩ | ⟨h1, _⟩
  · rw [h1] at h
    cases run_outcome st hop hfin with
    | done w rs' s1 s2 s3 s4 s5 s6 =>
      rw [s3] at h
      injection h with h
      subst h
      exact resOks_rejected s4 i hi hi'
    | panic pre op post w u s1 s2 s3 s4 s5 s6 _ => rw [s5] at h; cases h
  · exact absurd hrel h1

/-- `01` and infinity are rejected -/
example : Rejected (.numberValueFromString ['0', '1']) ∧ Rejected (.fpNumberValue ⟨false, ['i', 'n', 'f']⟩) ∧
    (execW 8 WSettings.default ⟨[], [], []⟩ [.numberValueFromString ['0', '1'], .nullValue, .finishDocument]).2.received = [0x6E, 0x75, 0x6C, 0x6C] :=
  ⟨.number _ (fun h => absurd ((isValid_iff _).2 h) (by decide)), .float _, by decide +kernel⟩

end Verif.Props

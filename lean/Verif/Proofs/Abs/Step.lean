import Verif.Proofs.Abs.Cursor
/-! # The reader behaves like the cursor: all methods -/

namespace Verif.Abs
open Reader Utf8 Json

/-! ## Number restriction -/

def bChar (b : UInt8) : Char := Char.ofNat b.toNat

def dropSignB : Bytes → Bytes
  | [] => []
  | c :: cs => if c == 0x2B || c == 0x2D then cs else c :: cs

def unsupportedBytes (t : Bytes) : Bool :=
  let exponent := (t.dropWhile fun c => c != 0x65 && c != 0x45).tail
  t.length > 100 || ((dropSignB exponent).dropWhile (· == 0x30)).length > 2

theorem bChar_eq (b : UInt8) : (bChar b == 'e') = (b == 0x65) ∧ (bChar b == 'E') = (b == 0x45) ∧ (bChar b == '+') = (b == 0x2B) ∧ (bChar b == '-') = (b == 0x2D) ∧ (bChar b == '0') = (b == 0x30) := by
  refine Utf8.forallByte (P := fun b => (bChar b == 'e') = (b == 0x65) ∧ (bChar b == 'E') = (b == 0x45) ∧ (bChar b == '+') = (b == 0x2B) ∧ (bChar b == '-') = (b == 0x2D) ∧ (bChar b == '0') = (b == 0x30)) ?_ b
  decide +kernel

theorem unsupported_bytes (bs : Bytes) : Cursor.unsupportedNumber (asciiText bs) = unsupportedBytes bs := by
  have h0 : asciiText bs = bs.map bChar := rfl
  unfold Cursor.unsupportedNumber unsupportedBytes
  have h1 : (asciiText bs).dropWhile (fun c => c != 'e' && c != 'E') = (bs.dropWhile fun c => c != 0x65 && c != 0x45).map bChar := by
    rw [h0, List.dropWhile_map]
    congr 2
    funext b
    simp only [Function.comp, bne, (bChar_eq b).1, (bChar_eq b).2.1]
  rw [h1, ← List.map_tail]
  have h2 : ∀ ds : Bytes, (ds.map bChar).dropWhile (· == '0') = (ds.dropWhile (· == 0x30)).map bChar := by
    intro ds
    rw [List.dropWhile_map]
    congr 2
    funext b
    exact (bChar_eq b).2.2.2.2
  have hl : (asciiText bs).length = bs.length := by simp [asciiText]
  generalize (bs.dropWhile fun c => c != 0x65 && c != 0x45).tail = e
  dsimp only
  rw [hl]
  have h3 : Cursor.dropSign (e.map bChar) = (dropSignB e).map bChar := by
    cases e with
    | nil => rfl
    | cons b ds =>
      show (if _ then _ else _) = (if _ then _ else _ : Bytes).map bChar
      rw [(bChar_eq b).2.2.1, (bChar_eq b).2.2.2.1]
      split <;> rfl
  rw [h3, h2, List.length_map]

theorem digit_ne_e {b : UInt8} (h : isDigit b = true) : (b != 0x65 && b != 0x45) = true := by
  refine Utf8.forallByte (P := fun b => isDigit b = true → (b != 0x65 && b != 0x45) = true) ?_ b h
  decide +kernel

theorem dropWhile_pre {p : UInt8 → Bool} {a b : Bytes} (h : ∀ x ∈ a, p x = true) : (a ++ b).dropWhile p = b.dropWhile p := by
  induction a with
  | nil => rfl
  | cons x a ih => rw [List.cons_append, List.dropWhile_cons_of_pos (h x (List.mem_cons_self ..)), ih fun y hy => h y (List.mem_cons_of_mem _ hy)]

theorem dropWhile_valid {p : NumParts} (h : p.Valid) : p.text.dropWhile (fun c => c != 0x65 && c != 0x45) = NumParts.expText p.exp := by
  unfold NumParts.text
  rw [dropWhile_pre, dropWhile_pre, dropWhile_pre]
  · cases hx : p.exp with
    | none => rfl
    | some x =>
      obtain ⟨e, sg, ds⟩ := x
      obtain ⟨h1, -⟩ := h.exp _ _ _ hx
      refine List.dropWhile_cons_of_neg ?_
      rcases h1 with rfl | rfl <;> decide
  · cases hx : p.frac with
    | none => simp [NumParts.fracText]
    | some ds =>
      intro x hm
      rcases List.mem_cons.1 hm with rfl | hm
      · decide
      · exact digit_ne_e ((h.frac _ hx).2 x hm)
  · intro x hm
    rcases h.int with h1 | ⟨d, ds, h1, h2, _, h3⟩ <;> rw [h1] at hm
    · simp at hm; subst hm; decide
    · rcases List.mem_cons.1 hm with rfl | hm
      · exact digit_ne_e h2
      · exact digit_ne_e (h3 x hm)
  · intro x hm
    unfold NumParts.signText at hm
    split at hm <;> simp at hm
    subst hm; decide

theorem unsupported_valid {p : NumParts} (h : p.Valid) : unsupportedBytes p.text = decide (p.text.length > 100 ∨ p.expDigits > 2) := by
  unfold unsupportedBytes
  rw [dropWhile_valid h]
  unfold NumParts.expDigits
  cases hx : p.exp with
  | none => simp [NumParts.expText, dropSignB]
  | some x =>
    obtain ⟨e, sg, ds⟩ := x
    obtain ⟨h1, h2, h3, h4⟩ := h.exp _ _ _ hx
    have key : dropSignB (NumParts.expText (some (e, sg, ds))).tail = ds := by
      cases sg with
      | some c => rcases h2 c rfl with rfl | rfl <;> rfl
      | none =>
        show dropSignB ds = ds
        cases ds with
        | nil => rfl
        | cons b ds =>
          have hb := h4 _ (List.mem_cons_self ..)
          refine if_neg ?_
          refine Utf8.forallByte (P := fun b => isDigit b = true → ¬ (b == 0x2B || b == 0x2D) = true) ?_ b hb
          decide +kernel
    dsimp only at key ⊢
    rw [key]
    simp

theorem unsupported_iff {bs : Bytes} (h : IsNumber bs) : Cursor.unsupportedNumber (asciiText bs) = true ↔ UnsupportedNumber bs := by
  rw [unsupported_bytes]
  constructor
  · intro hu
    obtain ⟨p, hp, rfl⟩ := h
    rw [unsupported_valid hp] at hu
    rcases of_decide_eq_true hu with h1 | h1
    · exact .inl h1
    · exact .inr ⟨p, hp, rfl, h1⟩
  · rintro (h1 | ⟨p, hp, rfl, h1⟩)
    · obtain ⟨p, hp, rfl⟩ := h
      rw [unsupported_valid hp]
      exact decide_eq_true (.inl h1)
    · rw [unsupported_valid hp]
      exact decide_eq_true (.inr h1)

section
variable {st : Settings} {T : Tops} {c up : Ctx} {td td' tu : Todo} {l lu : Lead} {v V : Cst} {s s' : St} {d : List (Sep × Cst)} {dm : List Mem} {is : Items} {ms : Members} {op : Op}

/-! ## Values of the wrong type -/

/-- the method requires a value of the type -/
def WT {α : Type} (t : ValueType) (m : R AbsSrc α) : Prop :=
  ∀ (s : St) (st c pos p r), s.expectsMemberName = false → c.emn = false → PeekTo p s (stp st c pos (some p) r) → isValue p = true → typeOf p ≠ t →
    m.run s = .err (.unexpectedValueType t (typeOf p) (loc (stp st c pos (some p) r))) (stp st c pos (some p) r)

theorem WT.bind {α β : Type} {t : ValueType} {m : R AbsSrc α} {f : α → R AbsSrc β} (h : WT t m) : WT t (m >>= f) := fun _ _ _ _ _ _ h1 h2 h3 h4 h5 => M.bind_err (h _ _ _ _ _ _ h1 h2 h3 h4 h5)

theorem WT.sev {t : ValueType} {chk : Bool} : WT t (startExpectedValueType t chk) := fun _ _ _ _ _ _ h1 h2 h3 h4 h5 => by
  rw [h3.sev h1]
  exact sev_type h2 h4 h5

theorem WT.sim {α : Type} {t : ValueType} {m : R AbsSrc α} {g : α → Cursor.Val} (h : WT t m) (hr : Rep st T c td s) (hh : Heads c td l v td') (ht : typeOf (startOf v) ≠ t) :
    Sim st T g (m.run s) (Cursor.wrongType (cur c td) t v.value) := by
  refine ⟨_, _, h _ _ _ _ _ _ (hr.front hh).emn hh.slot.emn (hr.front hh).peek (isValue_start v) ht, ?_, rfl, .of (hr.peeked hh)⟩
  rw [typeOf_value]
  rfl

theorem Rep.ok_sim {α : Type} {g : α → Cursor.Val} {a : α} {m : R AbsSrc α} (h : Rep st T c td s) (hh : Heads c td l v td')
    (hm : m.run s = .ok a (Abs.behind st c l v ((posOf c.bytes).over l.bytes) td'.bytes)) : Sim st T g (m.run s) (.ok (g a) (cur c td).advance) := by
  refine ⟨a, _, hm, rfl, ?_⟩
  rw [hh.cur, ← cur_add hh]
  exact .of (h.behind hh)

theorem tooDeep_cur (h : Fit st c td) : (cur c td).tooDeep st.maxNestingDepth 1 = tooDeep st c := by
  unfold Cursor.Cur.tooDeep Abs.tooDeep
  rw [cur_length h]
  cases st.maxNestingDepth with
  | none => rfl
  | some n => simp [Nat.lt_succ_iff]

/-! ## Methods -/

theorem peek_sim (h : Rep st T c td s) : Sim st T Cursor.Val.type (Reader.peek.run s) (Cursor.step st (cur c td) .peek) := by
  refine withValue_sim h NV.peek ?_
  intro l v td' hh
  refine ⟨typeOf (startOf v), _, ?_, ?_, .of (h.peeked hh)⟩
  · rw [(h.front hh).peek.peek (h.front hh).emn, mapPeeked_value (isValue_start _)]
  · rw [typeOf_value]

theorem beginArray_sim (h : Rep st T c td s) : Sim st T un (Reader.beginArray.run s) (Cursor.step st (cur c td) .beginArray) := by
  refine withValue_sim h (NV.sev.bind.bind : NV Reader.beginArray) ?_
  intro l v td' hh
  have hw : WT .array Reader.beginArray := WT.sev.bind.bind
  cases v with
  | null => exact hw.sim h hh nofun
  | bool b => exact hw.sim h hh (by cases b <;> exact nofun)
  | num x => exact hw.sim h hh nofun
  | str x => exact hw.sim h hh nofun
  | obj x => exact hw.sim h hh nofun
  | arr is =>
    show Sim st T un _ (Cursor.beginStep st (cur c td) (.array 0 is.values))
    unfold Cursor.beginStep
    rw [tooDeep_cur h.fit]
    cases hd : tooDeep st c with
    | some n =>
      exact ⟨_, _, ((h.front hh).peek.beginArray (h.front hh).emn).trans (M.bind_err (M.bind_err (sev_deep hh.slot.emn rfl rfl hd))), rfl, rfl, .of (h.peeked hh)⟩
    | none =>
      obtain ⟨s', h1, h2⟩ := h.beginArray hh hd
      refine ⟨(), s', h1, rfl, ?_⟩
      rw [hh.cur]
      exact .of h2

theorem beginObject_sim (h : Rep st T c td s) : Sim st T un (Reader.beginObject.run s) (Cursor.step st (cur c td) .beginObject) := by
  refine withValue_sim h (NV.sev.bind.bind : NV Reader.beginObject) ?_
  intro l v td' hh
  have hw : WT .object Reader.beginObject := WT.sev.bind.bind
  cases v with
  | null => exact hw.sim h hh nofun
  | bool b => exact hw.sim h hh (by cases b <;> exact nofun)
  | num x => exact hw.sim h hh nofun
  | str x => exact hw.sim h hh nofun
  | arr x => exact hw.sim h hh nofun
  | obj ms =>
    show Sim st T un _ (Cursor.beginStep st (cur c td) (.names ['<', '?', '>'] ms.values))
    unfold Cursor.beginStep
    rw [tooDeep_cur h.fit]
    cases hd : tooDeep st c with
    | some n =>
      exact ⟨_, _, ((h.front hh).peek.beginObject (h.front hh).emn).trans (M.bind_err (M.bind_err (sev_deep hh.slot.emn rfl rfl hd))), rfl, rfl, .of (h.peeked hh)⟩
    | none =>
      obtain ⟨s', h1, h2⟩ := h.beginObject hh hd
      refine ⟨(), s', h1, rfl, ?_⟩
      rw [hh.cur]
      exact .of h2

theorem nextNull_sim (h : Rep st T c td s) : Sim st T un (Reader.nextNull.run s) (Cursor.step st (cur c td) .nextNull) := by
  refine withValue_sim h (NV.sev.bind : NV Reader.nextNull) ?_
  intro l v td' hh
  have hw : WT .null Reader.nextNull := WT.sev.bind
  cases v with
  | bool b => exact hw.sim h hh (by cases b <;> exact nofun)
  | num x => exact hw.sim h hh nofun
  | str x => exact hw.sim h hh nofun
  | arr x => exact hw.sim h hh nofun
  | obj x => exact hw.sim h hh nofun
  | null =>
    exact h.ok_sim (g := un) hh (h.front hh).nextNull

theorem nextBool_sim (h : Rep st T c td s) : Sim st T Cursor.Val.bool (Reader.nextBool.run s) (Cursor.step st (cur c td) .nextBool) := by
  refine withValue_sim h (NV.sev.bind : NV Reader.nextBool) ?_
  intro l v td' hh
  have hw : WT .boolean Reader.nextBool := WT.sev.bind
  cases v with
  | null => exact hw.sim h hh nofun
  | num x => exact hw.sim h hh nofun
  | str x => exact hw.sim h hh nofun
  | arr x => exact hw.sim h hh nofun
  | obj x => exact hw.sim h hh nofun
  | bool _ =>
    exact h.ok_sim (g := Cursor.Val.bool) hh (h.front hh).nextBool

theorem nextString_sim (h : Rep st T c td s) : Sim st T Cursor.Val.text (Reader.nextString.run s) (Cursor.step st (cur c td) .nextString) := by
  refine withValue_sim h (NV.sev.bind : NV Reader.nextString) ?_
  intro l v td' hh
  have hw : WT .string Reader.nextString := WT.sev.bind
  cases v with
  | null => exact hw.sim h hh nofun
  | bool b => exact hw.sim h hh (by cases b <;> exact nofun)
  | num x => exact hw.sim h hh nofun
  | arr x => exact hw.sim h hh nofun
  | obj x => exact hw.sim h hh nofun
  | str _ =>
    exact h.ok_sim (g := Cursor.Val.text) hh (h.front hh).nextString

theorem nextStr_sim (h : Rep st T c td s) : Sim st T Cursor.Val.text (Reader.nextStr.run s) (Cursor.step st (cur c td) .nextStr) := by
  refine withValue_sim h (NV.sev.bind : NV Reader.nextStr) ?_
  intro l v td' hh
  have hw : WT .string Reader.nextStr := WT.sev.bind
  cases v with
  | null => exact hw.sim h hh nofun
  | bool b => exact hw.sim h hh (by cases b <;> exact nofun)
  | num x => exact hw.sim h hh nofun
  | arr x => exact hw.sim h hh nofun
  | obj x => exact hw.sim h hh nofun
  | str _ =>
    exact h.ok_sim (g := Cursor.Val.text) hh (h.front hh).nextStr

theorem restricted_value {bs : Bytes} (h : IsNumber bs) : (st.restrictNumberValues && Cursor.unsupportedNumber (asciiText bs)) = true ↔ Restricted st bs := by
  rw [restricted_iff, Bool.and_eq_true, unsupported_iff h]

theorem nextNumberAsString_sim (h : Rep st T c td s) : Sim st T Cursor.Val.text (Reader.nextNumberAsString.run s) (Cursor.step st (cur c td) .nextNumberAsString) := by
  refine withValue_sim h (NV.sev.bind.bind : NV Reader.nextNumberAsString) ?_
  intro l v td' hh
  have hw : WT .number Reader.nextNumberAsString := WT.sev.bind.bind
  cases v with
  | null => exact hw.sim h hh nofun
  | bool b => exact hw.sim h hh (by cases b <;> exact nofun)
  | str x => exact hw.sim h hh nofun
  | arr x => exact hw.sim h hh nofun
  | obj x => exact hw.sim h hh nofun
  | num bs =>
    have hn : IsNumber bs := hh.value_ok h.fit
    show Sim st T _ _ (if (st.restrictNumberValues && Cursor.unsupportedNumber (asciiText bs)) = true then Cursor.Step.stop (.number (asciiText bs)) else .ok (.text (asciiText bs)) (cur c td).advance)
    by_cases hx : Restricted st bs
    · rw [if_pos ((restricted_value hn).2 hx)]
      exact ⟨_, _, ((h.front hh).peek.nextNumberAsString (h.front hh).emn).trans (M.bind_err (readNumber_restricted hh.slot.emn hn ((h.front hh).bare rfl).numStop hx)), rfl⟩
    · rw [if_neg fun h' => hx ((restricted_value hn).1 h')]
      exact h.ok_sim (g := Cursor.Val.text) hh ((h.front hh).nextNumberAsString hx)

theorem nextNumberAsStr_sim (h : Rep st T c td s) : Sim st T Cursor.Val.text (Reader.nextNumberAsStr.run s) (Cursor.step st (cur c td) .nextNumberAsStr) := by
  refine withValue_sim h (NV.sev.bind.bind : NV Reader.nextNumberAsStr) ?_
  intro l v td' hh
  have hw : WT .number Reader.nextNumberAsStr := WT.sev.bind.bind
  cases v with
  | null => exact hw.sim h hh nofun
  | bool b => exact hw.sim h hh (by cases b <;> exact nofun)
  | str x => exact hw.sim h hh nofun
  | arr x => exact hw.sim h hh nofun
  | obj x => exact hw.sim h hh nofun
  | num bs =>
    have hn : IsNumber bs := hh.value_ok h.fit
    show Sim st T _ _ (if (st.restrictNumberValues && Cursor.unsupportedNumber (asciiText bs)) = true then Cursor.Step.stop (.number (asciiText bs)) else .ok (.text (asciiText bs)) (cur c td).advance)
    by_cases hx : Restricted st bs
    · rw [if_pos ((restricted_value hn).2 hx)]
      exact ⟨_, _, ((h.front hh).peek.nextNumberAsStr (h.front hh).emn).trans (M.bind_err (readNumber_restricted hh.slot.emn hn ((h.front hh).bare rfl).numStop hx)), rfl⟩
    · rw [if_neg fun h' => hx ((restricted_value hn).1 h')]
      exact h.ok_sim (g := Cursor.Val.text) hh ((h.front hh).nextNumberAsStr hx)

theorem skipValue_sim (h : Rep st T c td s) : Sim st T un (Reader.skipValue.run s) (Cursor.step st (cur c td) .skipValue) := by
  refine withValue_sim h NV.skipValue ?_
  intro l v td' hh
  rw [depth_value]
  cases hd : (cur c td).tooDeep st.maxNestingDepth v.depth with
  | some N =>
    obtain ⟨h1, h2⟩ := deep_some (cur_length h.fit) hd
    exact h.skipValue_deep hh h1 h2
  | none => exact h.ok_sim (g := un) hh ((h.front hh).skipValue ((deep_fits (cur_length h.fit)).1 hd))


/-! ## String reader -/

def readsOp (lens : List Nat) : R AbsSrc (List Bytes) := do
  let sr ← nextStringReader
  let (_, rs) ← strReadsOk lens sr
  pure rs

theorem str_split {x : Str} {r : Bytes} : tailOf (.str x) ++ r = x.body ++ 0x22 :: r := by simp [tailOf]

theorem nextStringReader_ok {pos : Pos} {r : Bytes} (hs : c.Slot l) : Reader.nextStringReader.run (stp st c pos (some .stringStart) r) = .ok StrReader.new (active st c (pos.over [0x22]) r) := by
  unfold Reader.nextStringReader
  rw [M.bind_ok (sev_ok (t := .string) (chk := false) hs.emn rfl rfl Bool.noConfusion)]
  rfl

theorem stringReader_sim {lens : List Nat} (h : Rep st T c td s) : Sim st T Cursor.Val.reads ((readsOp lens).run s) (Cursor.step st (cur c td) (.stringReader lens)) := by
  have hnv : NV Reader.nextStringReader := NV.sev.bind
  refine withValue_sim h hnv.bind ?_
  intro l v td' hh
  have hw : WT .string Reader.nextStringReader := WT.sev.bind
  have hw : WT .string (readsOp lens) := hw.bind
  cases v with
  | null => exact hw.sim h hh nofun
  | bool b => exact hw.sim h hh (by cases b <;> exact nofun)
  | num x => exact hw.sim h hh nofun
  | arr x => exact hw.sim h hh nofun
  | obj x => exact hw.sim h hh nofun
  | str x =>
    have h1 : Reader.nextStringReader.run s = .ok StrReader.new (active st c (((posOf c.bytes).over l.bytes).over [0x22]) (x.body ++ 0x22 :: td'.bytes)) := by
      rw [(h.front hh).peek.nextStringReader (h.front hh).emn, str_split]
      exact nextStringReader_ok hh.slot
    have hx : x.Ok := hh.value_ok h.fit
    have hV : V x.text td'.bytes (x.body ++ 0x22 :: td'.bytes) := ⟨x.items, hx, rfl⟩
    show Sim st T _ _ (.ok (.reads (Cursor.chunks lens (enc x.text))) (if (enc x.text).length < lens.sum then (cur c td).advance else { cur c td with str := true }))
    have h2 := strReadsOk_wp (st := st) hh.slot (lens := lens) (pos := ((posOf c.bytes).over l.bytes).over [0x22]) (r := x.body ++ 0x22 :: td'.bytes) SR.new
    unfold Wp at h2
    unfold readsOp
    rw [M.bind_ok h1]
    cases hrun : (strReadsOk lens StrReader.new).run (active st c (((posOf c.bytes).over l.bytes).over [0x22]) (x.body ++ 0x22 :: td'.bytes)) with
    | err e s1 =>
      rw [hrun] at h2
      exact absurd hV (h2.2 _ _)
    | ok res s1 =>
      rw [hrun] at h2
      obtain ⟨is, cs, his, hrs, hcase⟩ := h2
      rw [chunks_pieces]
      rcases hcase with ⟨_, _, hlen, r', hr', hs1⟩ | ⟨_, hlen, r', hr', hs1⟩
      · rw [hr'] at hV
        obtain ⟨cs', hcs, hV'⟩ := hV.items his
        obtain ⟨rfl, hrr⟩ := hV'.quote
        rw [List.append_nil] at hcs
        rw [List.nil_append] at hlen hrs
        subst hcs
        rw [if_pos hlen, hh.cur, ← cur_add hh]
        refine ⟨_, s1, (M.bind_ok hrun).trans rfl, by rw [hrs], ?_⟩
        have hbody : x.body ++ [0x22] = is.flatMap StrItem.bytes ++ [0x22] := by
          rw [hrr] at hr'
          have e : (x.body ++ [0x22]) ++ r' = (is.flatMap StrItem.bytes ++ [0x22]) ++ r' := by simpa using hr'
          exact List.append_cancel_right e
        have hb := h.behind hh
        rw [hs1 (.str x), ← hbody, ← hrr]
        unfold Abs.behind at hb
        rw [show (Cst.str x).bytes = [0x22] ++ (x.body ++ [0x22]) from rfl, ← Pos.over_over _ (plain_cons (by decide) plain_nil : Plain [0x22]).noBreak.left] at hb
        exact .of hb
      · rw [hr'] at hV
        obtain ⟨cs', hcs, hV'⟩ := hV.items his
        rw [List.nil_append] at hlen hrs
        have hlen' : ¬ (enc x.text).length < lens.sum := by
          rw [hcs, enc_append, List.length_append]; omega
        rw [if_neg hlen']
        refine ⟨_, s1, (M.bind_ok hrun).trans rfl, ?_, ?_⟩
        · rw [hrs, hcs, enc_append, pieces_append _ hlen]
        · refine .inr ⟨rfl, c, _, r', hs1, ?_⟩
          exact cur_path h.fit

/-! ## Names, ends -/

theorem name_sim {α : Type} {g : α → Cursor.Val} {m : R AbsSrc α} {f : Text → α} (h : Rep st T c td s)
    (hok : ∀ {up lu dm sp x w1 w2 v rest tu s}, Rep st T (.obj up lu dm) (.obj (.cons sp x w1 w2 v rest) tu) s →
      ∃ s', m.run s = .ok (f x.text) s' ∧ Rep st T (.val up lu dm sp x) (.val w1 w2 v rest tu) s')
    (hend : ∀ {s e s'}, beforeName.run s = .err e s' → m.run s = .err e s') :
    Sim st T g (m.run s) (if (cur c td).str then .misuse else match (cur c td).frames with
      | .names _ ((n, v) :: rest) :: fs => .ok (g (f n)) { cur c td with frames := .value n v rest :: fs }
      | .names _ [] :: _ => .err (.structure .fewerElementsThanExpected) (cur c td)
      | _ => .misuse) := by
  have hf := h.fit
  rw [cur_str, if_neg (by exact Bool.false_ne_true)]
  cases c with
  | obj up lu dm =>
    cases td <;> first | exact hf.elim | skip
    rename_i ms tu
    cases ms with
    | nil cl =>
      have hp := h.members.peek.beforeName h.members.facts.1 h.members.facts.2.2.2
      exact ⟨_, _, hend (hp.trans beforeName_end), rfl, rfl, .of (h.of_members ⟨h.members.slot, h.members.ok, .inr rfl⟩)⟩
    | cons sp x w1 w2 v rest =>
      obtain ⟨s', h1, h2⟩ := hok h
      exact ⟨_, s', h1, rfl, .of h2⟩
  | top => cases td <;> first | exact hf.elim | trivial
  | arr => cases td <;> first | exact hf.elim | trivial
  | val => cases td <;> first | exact hf.elim | trivial

theorem endArray_sim (h : Rep st T c td s) : Sim st T un (Reader.endArray.run s) (Cursor.step st (cur c td) .endArray) := by
  have hf := h.fit
  unfold Cursor.step
  dsimp only
  rw [cur_str, if_neg (by exact Bool.false_ne_true)]
  cases c with
  | arr up lu d =>
    cases td <;> first | exact hf.elim | skip
    rename_i is tu
    cases is with
    | nil cl =>
      obtain ⟨s', h1, h2⟩ := h.endArray
      show Sim st T un _ (.ok .unit (cur (.arr up lu d) (.arr (.nil cl) tu)).pop)
      rw [pop_items hf]
      exact ⟨(), s', h1, rfl, .of h2⟩
    | cons sp v rest =>
      exact ⟨_, _, (h.items.peek.endArray h.items.facts.2.1).trans (endArray_more (by intro he; have := isEnd_start v; rw [show startOf v = .arrayEnd from he] at this; cases this)), rfl, rfl,
        .of (h.of_items ⟨h.items.slot, h.items.ok, .inr rfl⟩)⟩
  | top => cases td <;> first | exact hf.elim | trivial
  | obj => cases td <;> first | exact hf.elim | trivial
  | val => cases td <;> first | exact hf.elim | trivial

theorem endObject_sim (h : Rep st T c td s) : Sim st T un (Reader.endObject.run s) (Cursor.step st (cur c td) .endObject) := by
  have hf := h.fit
  unfold Cursor.step
  dsimp only
  rw [cur_str, if_neg (by exact Bool.false_ne_true)]
  cases c with
  | obj up lu d =>
    cases td <;> first | exact hf.elim | skip
    rename_i ms tu
    cases ms with
    | nil cl =>
      obtain ⟨s', h1, h2⟩ := h.endObject
      show Sim st T un _ (.ok .unit (cur (.obj up lu d) (.obj (.nil cl) tu)).pop)
      rw [pop_members hf]
      exact ⟨(), s', h1, rfl, .of h2⟩
    | cons sp x w1 w2 v rest =>
      exact ⟨_, _, (h.members.peek.endObject h.members.facts.2.1 h.members.facts.2.2.1).trans (endObject_more (by intro he; cases he)), rfl, rfl,
        .of (h.of_members ⟨h.members.slot, h.members.ok, .inr rfl⟩)⟩
  | top => cases td <;> first | exact hf.elim | trivial
  | arr => cases td <;> first | exact hf.elim | trivial
  | val => cases td <;> first | exact hf.elim | trivial

theorem moreI_values : moreI is = !is.values.isEmpty := by cases is <;> rfl
theorem moreM_values : moreM ms = !ms.values.isEmpty := by cases ms <;> rfl

theorem hasNext_sim (h : Rep st T c td s) : Sim st T Cursor.Val.bool (Reader.hasNext.run s) (Cursor.step st (cur c td) .hasNext) := by
  have hf := h.fit
  unfold Cursor.step
  dsimp only
  rw [cur_str, if_neg (by exact Bool.false_ne_true)]
  cases c with
  | top d =>
    cases td <;> first | exact hf.elim | skip
    rename_i t
    show Sim st T _ _ (if (!d.isEmpty && st.allowMultipleTopLevel) = true then .ok (.bool !t.values.isEmpty) _ else .misuse)
    by_cases hd : (!d.isEmpty && st.allowMultipleTopLevel) = true
    · rw [if_pos hd]
      simp only [Bool.and_eq_true, Bool.not_eq_true', List.isEmpty_eq_false_iff] at hd
      cases t with
      | nil t =>
        obtain ⟨pos, t', ht', rfl, hpos⟩ := h.eof
        exact ⟨false, _, hasNext_top_eof hd.1 hd.2 ht', rfl, .of ⟨h.doc, h.ok, h.depth, h.fit, .inr (.inr ⟨d, t, rfl, hd, rfl, by rw [← hpos]⟩)⟩⟩
      | cons w v rest =>
        have hh : Heads (.top d) (.top (.cons w v rest)) (.ws w) v (.top rest) := .top
        have h1 : s.settings = st := by rcases (h.front hh).at' with h1 | ⟨_, h1, _⟩ <;> rw [h1] <;> rfl
        refine ⟨true, _, ?_, rfl, .of (h.peeked hh)⟩
        rw [(h.front hh).peek.hasNext (by rcases (h.front hh).at' with h1 | ⟨_, h1, _⟩ <;> rw [h1] <;> rfl)
          fun _ => ⟨by rcases (h.front hh).at' with h1 | ⟨_, h1, _⟩ <;> rw [h1] <;> simpa [stp, Ctx.isEmpty] using hd.1, by rw [h1]; exact hd.2⟩, Abs.hasNext_top hd.1 hd.2 (isValue_start v)]
    · rw [if_neg hd]; trivial
  | arr up lu d =>
    cases td <;> first | exact hf.elim | skip
    obtain ⟨s', h1, h2⟩ := h.hasNextI
    exact ⟨_, s', h1, by rw [moreI_values], .of h2⟩
  | obj up lu d =>
    cases td <;> first | exact hf.elim | skip
    obtain ⟨s', h1, h2⟩ := h.hasNextM
    exact ⟨_, s', h1, by rw [moreM_values], .of h2⟩
  | val => cases td <;> first | exact hf.elim | trivial

theorem skipToTopLevel_sim (h : Rep st T c td s) : Sim st T un (Reader.skipToTopLevel.run s) (Cursor.step st (cur c td) .skipToTopLevel) := by
  have hf := h.fit
  unfold Cursor.step
  dsimp only
  rw [cur_str, if_neg (by exact Bool.false_ne_true)]
  unfold Reader.skipToTopLevel
  rw [run_get, h.sra, if_neg (by exact Bool.false_ne_true)]
  have he : ∀ {c td s}, Rep st T c td s → c.isVal = false → Fit st c td → Sim st T un (((if expectsMemberValue s then Reader.skipValue else pure ()) >>= fun _ => skipToTopLevelLoop s.stack.length).run s) (Cursor.finishAll st (cur c td).frames.length (cur c td)) := by
    intro c td s h hv hf
    have h1 : expectsMemberValue s = false := by
      unfold Reader.expectsMemberValue isInObject
      rw [h.stack, h.emn]
      cases c <;> first | rfl | cases hv
    rw [h1, if_neg (by exact Bool.false_ne_true), h.stack, cur_length hf]
    exact finishAll_sim h rfl hv
  cases c with
  | top d => cases td <;> first | exact hf.elim | exact he h rfl hf
  | arr up lu d => cases td <;> first | exact hf.elim | exact he h rfl hf
  | obj up lu d => cases td <;> first | exact hf.elim | exact he h rfl hf
  | val up lu d sp n =>
    cases td <;> first | exact hf.elim | skip
    rename_i w1 w2 v ms tu
    have h1 : expectsMemberValue s = true := by
      unfold Reader.expectsMemberValue isInObject
      rw [h.stack, h.emn]
      rfl
    rw [h1, if_pos rfl]
    show Sim st T un _ (match (cur (.val up lu d sp n) (.val w1 w2 v ms tu)).tooDeep st.maxNestingDepth (Cursor.depth v.value) with
      | some n => .stop (.depth n)
      | none => Cursor.finishAll st (cur (.val up lu d sp n) (.val w1 w2 v ms tu)).frames.length (cur (.val up lu d sp n) (.val w1 w2 v ms tu)).advance)
    have hh : Heads (.val up lu d sp n) (.val w1 w2 v ms tu) (.colon w1 w2) v (.obj ms tu) := .val
    rw [depth_value]
    cases hd : (cur (.val up lu d sp n) (.val w1 w2 v ms tu)).tooDeep st.maxNestingDepth v.depth with
    | some N =>
      obtain ⟨h1, h2⟩ := deep_some (cur_length hf) hd
      exact ErrK.bind (h.skipValue_deep hh h1 h2)
    | none =>
      obtain ⟨s1, h3, h4⟩ := h.skipValue hh ((deep_fits (cur_length hf)).1 hd)
      rw [M.bind_ok h3, cur_length hf, h.stack]
      dsimp only
      rw [hh.cur, ← cur_add hh]
      exact finishAll_sim h4 rfl rfl

/-! ## Seeking -/

theorem seekItems_rep (i : Nat) : ∀ (k : Nat) {is : Items} {d : List (Sep × Cst)} {s : St}, Rep st T (.arr up lu d) (.arr is tu) s →
    (Fits st (.arr up lu d) (Cursor.depthItems (is.values.take k)) →
      (k < is.values.length → ∃ d' rest s', (seekItems i k).run s = .ok () s' ∧ Rep st T (.arr up lu d') (.arr rest tu) s' ∧ appI d' rest = appI d is ∧ d'.length = d.length + k ∧ rest.values = is.values.drop k) ∧
      (¬ k < is.values.length → ErrK (.structure (.tooShortArray i)) ((seekItems i k).run s))) ∧
    (∀ N, st.maxNestingDepth = some N → N < (Ctx.arr up lu d).stack.length + Cursor.depthItems (is.values.take k) → ErrK (.depth N) ((seekItems i k).run s))
  | 0, is, d, s, h => by
    obtain ⟨s1, h1, h2⟩ := h.hasNextI
    rw [seekItems_zero]
    refine ⟨fun _ => ⟨fun hk => ?_, fun hk => ?_⟩, fun N hN hlt => ?_⟩
    · refine ⟨d, is, s1, ?_, h2, rfl, rfl, rfl⟩
      rw [M.bind_ok h1]
      cases is with
      | nil => cases hk
      | cons => rfl
    · refine ErrK.after h1 ?_
      cases is with
      | nil => exact ⟨_, _, rfl, rfl⟩
      | cons => exact absurd (Nat.succ_pos _) hk
    · have := h.depth N hN
      simp only [List.take_zero, Cursor.depthItems] at hlt
      omega
  | k + 1, is, d, s, h => by
    obtain ⟨s1, h1, h2⟩ := h.hasNextI
    rw [seekItems_succ]
    cases is with
    | nil cl =>
      refine ⟨fun _ => ⟨fun hk => absurd hk (Nat.not_lt_zero _), fun hk => ?_⟩, fun N hN hlt => ?_⟩
      · exact ErrK.after h1 ⟨_, _, rfl, rfl⟩
      · have := h.depth N hN
        simp only [Items.values, List.take_nil, Cursor.depthItems] at hlt
        omega
    | cons sp v rest =>
      have hdep : Cursor.depthItems ((Items.cons sp v rest).values.take (k + 1)) = max v.depth (Cursor.depthItems (rest.values.take k)) := by
        simp only [Items.values, List.take_succ_cons, Cursor.depthItems, depth_value]
      rw [hdep]
      by_cases hv : Fits st (.arr up lu d) v.depth
      · obtain ⟨s2, h3, h4⟩ := h2.skipValue .arr hv
        obtain ⟨i1, i2⟩ := seekItems_rep i k h4
        refine ⟨fun hf => ?_, fun N hN hlt => ?_⟩
        · obtain ⟨j1, j2⟩ := i1 (hf.mono (by simp only [Ctx.stack]; omega))
          refine ⟨fun hk => ?_, fun hk => ?_⟩
          · obtain ⟨d', rest', s', h5, h6, h7, h8, h9⟩ := j1 (by simpa [Items.values] using hk)
            refine ⟨d', rest', s', ?_, h6, by rw [h7, appI_append], by rw [h8]; simp; omega, by simpa [Items.values] using h9⟩
            rw [M.bind_ok h1]
            exact (M.bind_ok h3).trans h5
          · exact ErrK.after h1 (ErrK.after h3 (j2 (by simpa [Items.values] using hk)))
        · refine ErrK.after h1 (ErrK.after h3 (i2 N hN ?_))
          have := hv N hN
          simp only [Ctx.stack] at *
          omega
      · refine ⟨fun hf => absurd (hf.mono (by omega)) hv, fun N hN hlt => ?_⟩
        refine ErrK.after h1 (ErrK.bind (h2.skipValue_deep .arr hN ?_))
        refine Nat.lt_of_not_le fun hle => hv ?_
        intro m hm
        rw [hN] at hm
        cases hm
        exact hle

theorem seekMembers_rep (name : Text) : ∀ (ms : Members) {dm : List Mem} {s : St} {n : Nat}, Rep st T (.obj up lu dm) (.obj ms tu) s → ms.values.length < n →
    (Fits st (.obj up lu dm) (Cursor.depthItems (Cursor.splitMembers name ms.values).1) →
      (∀ jv jrest, (Cursor.splitMembers name ms.values).2 = some (jv, jrest) → ∃ d' sp x w1 w2 v rest s', (seekMembers name n).run s = .ok () s' ∧
        Rep st T (.val up lu d' sp x) (.val w1 w2 v rest tu) s' ∧ appM d' (.cons sp x w1 w2 v rest) = appM dm ms ∧ x.text = name ∧ v.value = jv ∧ rest.values = jrest) ∧
      ((Cursor.splitMembers name ms.values).2 = none → ErrK (.structure (.missingObjectMember name)) ((seekMembers name n).run s))) ∧
    (∀ N, st.maxNestingDepth = some N → N < (Ctx.obj up lu dm).stack.length + Cursor.depthItems (Cursor.splitMembers name ms.values).1 → ErrK (.depth N) ((seekMembers name n).run s))
  | .nil cl, dm, s, n, h, hn => by
    obtain ⟨n, rfl⟩ : ∃ k, n = k + 1 := ⟨n - 1, by omega⟩
    obtain ⟨s1, h1, h2⟩ := h.hasNextM
    rw [seekMembers_succ]
    refine ⟨fun _ => ⟨nofun, fun _ => ErrK.after h1 ⟨_, _, rfl, rfl⟩⟩, fun N hN hlt => ?_⟩
    have := h.depth N hN
    simp only [Members.values, Cursor.splitMembers, Cursor.depthItems] at hlt
    omega
  | .cons sp x w1 w2 v rest, dm, s, n, h, hn => by
    obtain ⟨n, rfl⟩ : ∃ k, n = k + 1 := ⟨n - 1, by omega⟩
    obtain ⟨s0, h0, h1'⟩ := h.hasNextM
    obtain ⟨s1, h1, h2⟩ := h1'.nextName
    have hn' : rest.values.length < n := by simp only [Members.values, List.length_cons] at hn; omega
    rw [seekMembers_succ]
    by_cases hx : x.text = name
    · have hsp : Cursor.splitMembers name (Members.cons sp x w1 w2 v rest).values = ([], some (v.value, rest.values)) := by
        simp [Members.values, Cursor.splitMembers, hx]
      rw [hsp]
      refine ⟨fun _ => ⟨?_, nofun⟩, fun N hN hlt => ?_⟩
      · rintro _ _ ⟨⟩
        refine ⟨dm, sp, x, w1, w2, v, rest, s1, ?_, h2, rfl, hx, rfl, rfl⟩
        rw [M.bind_ok h0]
        refine (M.bind_ok h1).trans ?_
        rw [hx, if_pos (by simp)]
        rfl
      · have := h.depth N hN
        simp only [Cursor.depthItems] at hlt
        omega
    · have hsp : Cursor.splitMembers name (Members.cons sp x w1 w2 v rest).values = (v.value :: (Cursor.splitMembers name rest.values).1, (Cursor.splitMembers name rest.values).2) := by
        simp [Members.values, Cursor.splitMembers, hx]
      rw [hsp]
      have hdep : Cursor.depthItems (v.value :: (Cursor.splitMembers name rest.values).1) = max v.depth (Cursor.depthItems (Cursor.splitMembers name rest.values).1) := by
        simp only [Cursor.depthItems, depth_value]
      dsimp only
      rw [hdep]
      have hne : ¬ (x.text == name) = true := by simpa using hx
      by_cases hv : Fits st (.val up lu dm sp x) v.depth
      · obtain ⟨s2, h3, h4⟩ := h2.skipValue .val hv
        obtain ⟨i1, i2⟩ := seekMembers_rep name rest h4 hn'
        refine ⟨fun hf => ?_, fun N hN hlt => ?_⟩
        · obtain ⟨j1, j2⟩ := i1 (hf.mono (by simp only [Ctx.stack]; omega))
          refine ⟨fun jv jrest hj => ?_, fun hj => ?_⟩
          · obtain ⟨d', sp', x', w1', w2', v', rest', s', h5, h6, h7, h8⟩ := j1 jv jrest hj
            refine ⟨d', sp', x', w1', w2', v', rest', s', ?_, h6, by rw [h7, appM_append], h8⟩
            rw [M.bind_ok h0]
            refine (M.bind_ok h1).trans ?_
            rw [if_neg hne]
            exact (M.bind_ok h3).trans h5
          · refine ErrK.after h0 (ErrK.after h1 ?_)
            rw [if_neg hne]
            exact ErrK.after h3 (j2 hj)
        · refine ErrK.after h0 (ErrK.after h1 ?_)
          rw [if_neg hne]
          refine ErrK.after h3 (i2 N hN ?_)
          have := hv N hN
          simp only [Ctx.stack] at *
          omega
      · refine ⟨fun hf => absurd (hf.mono (by simp only [Ctx.stack]; omega)) hv, fun N hN hlt => ?_⟩
        refine ErrK.after h0 (ErrK.after h1 ?_)
        rw [if_neg hne]
        refine ErrK.bind (h2.skipValue_deep .val hN ?_)
        refine Nat.lt_of_not_le fun hle => hv ?_
        intro m hm
        rw [hN] at hm
        cases hm
        exact hle


theorem WT.errK {α : Type} {t : ValueType} {m : R AbsSrc α} (h : WT t m) (hr : Rep st T c td s) (hh : Heads c td l v td') (ht : typeOf (startOf v) ≠ t) :
    ErrK (.type t (Cursor.typeOf v.value)) (m.run s) := by
  refine ⟨_, _, h _ _ _ _ _ _ (hr.front hh).emn hh.slot.emn (hr.front hh).peek (isValue_start v) ht, ?_⟩
  rw [typeOf_value]
  rfl

theorem seek_sim : ∀ {ps : List PathPiece} {c : Ctx} {td : Todo} {s : St}, Rep st T c td s → Sim st T un ((seekToLoop ps).run s) (Cursor.seek st ps (cur c td))
  | [], c, td, s, h => ⟨(), s, rfl, rfl, .of h⟩
  | .arrayItem i :: ps, c, td, s, h => by
    have hnv : NV Reader.beginArray := NV.sev.bind.bind
    have hwt : WT .array Reader.beginArray := WT.sev.bind.bind
    have hnv : NV (seekToLoop (.arrayItem i :: ps)) := hnv.bind.bind
    have hwt : WT .array (seekToLoop (.arrayItem i :: ps)) := hwt.bind.bind
    refine withValue_sim h hnv ?_
    intro l v td' hh
    cases v with
    | null => exact hwt.errK h hh nofun
    | bool b => exact hwt.errK h hh (by cases b <;> exact nofun)
    | num x => exact hwt.errK h hh nofun
    | str x => exact hwt.errK h hh nofun
    | obj x => exact hwt.errK h hh nofun
    | arr is =>
      show Sim st T un _ (match (cur c td).tooDeep st.maxNestingDepth 1, ((cur c td).push (.array 0 is.values)).tooDeep st.maxNestingDepth (Cursor.depthItems (is.values.take i)) with
        | some n, _ => .stop (.depth n)
        | none, some n => .stop (.depth n)
        | none, none => if i < is.values.length then Cursor.seek st ps ((cur c td).push (.array i (is.values.drop i))) else .stop (.structure (.tooShortArray i)))
      rw [tooDeep_cur h.fit]
      cases hd : tooDeep st c with
      | some n =>
        have he := ((h.front hh).peek.beginArray (h.front hh).emn).trans (M.bind_err (M.bind_err (sev_deep hh.slot.emn rfl rfl hd)))
        exact ErrK.bind (ErrK.bind ⟨_, _, he, rfl⟩)
      | none =>
        obtain ⟨s1, h1, h2⟩ := h.beginArray hh hd
        have hcur : (cur c td).push (.array 0 is.values) = cur (.arr c l []) (.arr is td') := by rw [hh.cur]; rfl
        rw [hcur]
        obtain ⟨i1, i2⟩ := seekItems_rep i i h2
        cases hd2 : (cur (.arr c l []) (.arr is td')).tooDeep st.maxNestingDepth (Cursor.depthItems (is.values.take i)) with
        | some N =>
          obtain ⟨h3, h4⟩ := deep_some (cur_length h2.fit) hd2
          exact ErrK.bind (ErrK.after h1 (i2 N h3 h4))
        | none =>
          obtain ⟨j1, j2⟩ := i1 ((deep_fits (cur_length h2.fit)).1 hd2)
          dsimp only
          by_cases hi : i < is.values.length
          · rw [if_pos hi]
            obtain ⟨d', rest, s2, h5, h6, h7, h8, h9⟩ := j1 hi
            have hcur2 : (cur c td).push (.array i (is.values.drop i)) = cur (.arr c l d') (.arr rest td') := by
              rw [hh.cur]
              simp only [cur, h7, h8, h9]
              simp [appI]
            rw [hcur2]
            have hrun : (seekToPiece (.arrayItem i)).run s = .ok () s2 := (M.bind_ok h1).trans h5
            show Sim st T un ((seekToPiece (.arrayItem i) >>= fun _ => seekToLoop ps).run s) _
            rw [M.bind_ok hrun]
            exact seek_sim h6
          · rw [if_neg hi]
            exact ErrK.bind (ErrK.after h1 (j2 hi))
  | .objectMember name :: ps, c, td, s, h => by
    have hnv : NV Reader.beginObject := NV.sev.bind.bind
    have hwt : WT .object Reader.beginObject := WT.sev.bind.bind
    have hnv : NV (seekToLoop (.objectMember name :: ps)) := hnv.bind.bind
    have hwt : WT .object (seekToLoop (.objectMember name :: ps)) := hwt.bind.bind
    refine withValue_sim h hnv ?_
    intro l v td' hh
    cases v with
    | null => exact hwt.errK h hh nofun
    | bool b => exact hwt.errK h hh (by cases b <;> exact nofun)
    | num x => exact hwt.errK h hh nofun
    | str x => exact hwt.errK h hh nofun
    | arr x => exact hwt.errK h hh nofun
    | obj ms =>
      show Sim st T un _ (match (cur c td).tooDeep st.maxNestingDepth 1, ((cur c td).push (.names name ms.values)).tooDeep st.maxNestingDepth (Cursor.depthItems (Cursor.splitMembers name ms.values).1) with
        | some n, _ => .stop (.depth n)
        | none, some n => .stop (.depth n)
        | none, none => match (Cursor.splitMembers name ms.values).2 with
          | some (v, rest) => Cursor.seek st ps ((cur c td).push (.value name v rest))
          | none => .stop (.structure (.missingObjectMember name)))
      rw [tooDeep_cur h.fit]
      cases hd : tooDeep st c with
      | some n =>
        have he := ((h.front hh).peek.beginObject (h.front hh).emn).trans (M.bind_err (M.bind_err (sev_deep hh.slot.emn rfl rfl hd)))
        exact ErrK.bind (ErrK.bind ⟨_, _, he, rfl⟩)
      | none =>
        obtain ⟨s1, h1, h2⟩ := h.beginObject hh hd
        have hlen : ((cur c td).push (.names name ms.values)).frames.length = (Ctx.obj c l []).stack.length := congrArg (· + 1) (cur_length h.fit)
        obtain ⟨i1, i2⟩ := seekMembers_rep name ms h2 h2.fuelM
        have hgo : (seekToPiece (.objectMember name)).run s = (seekMembers name (fuel s1)).run s1 := (M.bind_ok h1).trans (by rw [run_get])
        have heK : ∀ {k}, ErrK k ((seekMembers name (fuel s1)).run s1) → ErrK k ((seekToLoop (.objectMember name :: ps)).run s) := by
          intro k hk
          refine ErrK.bind ?_
          rw [hgo]
          exact hk
        cases hd2 : ((cur c td).push (.names name ms.values)).tooDeep st.maxNestingDepth (Cursor.depthItems (Cursor.splitMembers name ms.values).1) with
        | some N =>
          obtain ⟨h3, h4⟩ := deep_some hlen hd2
          exact heK (i2 N h3 h4)
        | none =>
          obtain ⟨j1, j2⟩ := i1 ((deep_fits hlen).1 hd2)
          dsimp only
          cases hsp : (Cursor.splitMembers name ms.values).2 with
          | none => exact heK (j2 hsp)
          | some q =>
            obtain ⟨jv, jrest⟩ := q
            obtain ⟨d', sp, x, w1, w2, v, rest, s2, h5, h6, h7, h8, h9, h10⟩ := j1 jv jrest hsp
            have hcur2 : (cur c td).push (.value name jv jrest) = cur (.val c l d' sp x) (.val w1 w2 v rest td') := by
              rw [hh.cur]
              simp only [cur, h7, h8, h9, h10]
              simp [appM]
            dsimp only
            rw [hcur2]
            show Sim st T un ((seekToPiece (.objectMember name) >>= fun _ => seekToLoop ps).run s) _
            rw [M.bind_ok (hgo.trans h5)]
            exact seek_sim h6

theorem seekTo_sim {path : List PathPiece} (h : Rep st T c td s) : Sim st T un ((Reader.seekTo path).run s) (Cursor.step st (cur c td) (.seekTo path)) := by
  refine withValue_sim h (NV.peek.bind : NV (Reader.seekTo path)) ?_
  intro l v td' hh
  have h1 := ((h.front hh).peek.peek (h.front hh).emn).trans (by rw [mapPeeked_value (isValue_start _)])
  show Sim st T un ((Reader.peek >>= fun _ => seekToLoop path).run s) _
  rw [M.bind_ok h1]
  exact seek_sim (h.peeked hh)

theorem seekBack_sim {path : List PathPiece} (h : Rep st T c td s) : Sim st T un ((Reader.seekBack path).run s) (Cursor.step st (cur c td) (.seekBack path)) := by
  unfold Cursor.step
  dsimp only
  rw [cur_str, if_neg (by exact Bool.false_ne_true)]
  exact back_sim h

theorem consumeTrailing_sim (h : Rep st T c td s) : match Cursor.step st (cur c td) .consumeTrailingWhitespace with
    | .ok v _ => v = .unit ∧ ∃ s', Reader.consumeTrailingWhitespace.run s = .ok () s'
    | .misuse => True
    | _ => False := by
  have hf := h.fit
  unfold Cursor.step
  dsimp only
  cases c with
  | top d =>
    cases td <;> first | exact hf.elim | skip
    rename_i t
    cases t with
    | cons => rw [if_neg (by simp [cur, Tops.values])]; trivial
    | nil t =>
      by_cases hd : d = []
      · rw [if_neg (by simp [cur, hd])]; trivial
      · rw [if_pos (by simp [cur, hd, Tops.values])]
        obtain ⟨pos, t', ht', rfl, hpos⟩ := h.eof
        exact ⟨rfl, _, consumeTrailing_ok hd ht'⟩
  | arr => rw [if_neg (by cases td <;> first | exact hf.elim | simp [cur, Cursor.Cur.push])]; trivial
  | obj => rw [if_neg (by cases td <;> first | exact hf.elim | simp [cur, Cursor.Cur.push])]; trivial
  | val => rw [if_neg (by cases td <;> first | exact hf.elim | simp [cur, Cursor.Cur.push])]; trivial

/-! ## All methods -/

theorem str_step {k : Cursor.Cur} (hk : k.str = true) (hop : ∀ b, op ≠ .currentPosition b) : Cursor.step st k op = .misuse := by
  have hw : ∀ f, Cursor.withValue st k f = .misuse := by
    intro f
    unfold Cursor.withValue Cursor.Cur.canValue
    rw [hk]
    rfl
  cases op <;> simp only [Cursor.step, hw, hk, if_true] <;> first | rfl | exact absurd rfl (hop _)

theorem step_sim {k : Cursor.Cur} (h : RepC st T k s) (op : Op) (hct : op ≠ .consumeTrailingWhitespace) : Sim st T Cursor.valOf ((runOp op).run s) (Cursor.step st k op) := by
  rcases h with ⟨c, td, rfl, h⟩ | ⟨hk, c, pos, r, rfl, hp⟩
  · cases op with
    | peek => exact (peek_sim h).out fun _ => rfl
    | beginArray => exact (beginArray_sim h).out fun _ => rfl
    | endArray => exact (endArray_sim h).out fun _ => rfl
    | beginObject => exact (beginObject_sim h).out fun _ => rfl
    | endObject => exact (endObject_sim h).out fun _ => rfl
    | nextName => exact Sim.out (g := Cursor.Val.text) (name_sim (f := id) (g := Cursor.Val.text) h (fun h => h.nextName) fun h => M.bind_err h) fun _ => rfl
    | nextNameOwned => exact Sim.out (g := Cursor.Val.text) (name_sim (f := id) (g := Cursor.Val.text) h (fun h => h.nextNameOwned) fun h => M.bind_err h) fun _ => rfl
    | skipName => exact Sim.out (g := un) (name_sim (f := fun _ => ()) (g := un) h (fun h => h.skipName) fun h => M.bind_err h) fun _ => rfl
    | nextString => exact (nextString_sim h).out fun _ => rfl
    | nextStr => exact (nextStr_sim h).out fun _ => rfl
    | stringReader lens =>
      have he : (runOp (.stringReader lens) : R AbsSrc Out).run s = (readsOp lens >>= fun rs => pure (.reads rs)).run s := by
        unfold readsOp
        show ((nextStringReader >>= _ : R AbsSrc Out)).run s = _
        rw [M.run_bind, M.run_bind, M.run_bind]
        cases nextStringReader.run s with
        | err => rfl
        | ok sr s1 =>
          dsimp only
          rw [M.run_bind, M.run_bind]
          cases (strReadsOk lens sr).run s1 <;> rfl
      rw [he]
      exact (stringReader_sim h).out fun _ => rfl
    | nextNumberAsStr => exact (nextNumberAsStr_sim h).out fun _ => rfl
    | nextNumberAsString => exact (nextNumberAsString_sim h).out fun _ => rfl
    | nextBool => exact (nextBool_sim h).out fun _ => rfl
    | nextNull => exact (nextNull_sim h).out fun _ => rfl
    | hasNext => exact (hasNext_sim h).out fun _ => rfl
    | skipValue => exact (skipValue_sim h).out fun _ => rfl
    | skipToTopLevel => exact (skipToTopLevel_sim h).out fun _ => rfl
    | seekTo path => exact (seekTo_sim h).out fun _ => rfl
    | seekBack path => exact (seekBack_sim h).out fun _ => rfl
    | consumeTrailingWhitespace => exact absurd rfl hct
    | currentPosition b =>
      refine ⟨_, s, rfl, ?_, .of h⟩
      show Cursor.Val.path _ = .path _
      unfold currentPosition
      dsimp only
      rw [h.path]
      congr 1
      cases b <;> cases st.trackPath <;> simp [Cursor.Cur.path, cur_path h.fit]
  · by_cases hop : ∃ b, op = .currentPosition b
    · obtain ⟨b, rfl⟩ := hop
      refine ⟨_, _, rfl, ?_, .inr ⟨hk, c, pos, r, rfl, hp⟩⟩
      show Cursor.Val.path _ = .path _
      unfold currentPosition
      dsimp only
      have hpath : (active st c pos r).path = if st.trackPath then some c.path else none := rfl
      rw [hpath]
      congr 1
      cases b <;> cases st.trackPath <;> simp [Cursor.Cur.path, hp]
    · rw [str_step hk fun b hb => hop ⟨b, hb⟩]
      trivial

/-- The results of the specification are a prefix of the results of the reader -/
theorem run_prefix : ∀ (ops : List Op) {k : Cursor.Cur} {s : St}, RepC st T k s → Cursor.run st ops k <+: (runOps ops s).map Cursor.view
  | [], k, s, _ => List.prefix_refl _
  | op :: ops, k, s, h => by
    by_cases hct : op = .consumeTrailingWhitespace
    · subst hct
      unfold Cursor.run
      rw [runOps]
      rcases h with ⟨c, td, rfl, h⟩ | ⟨hk, c, pos, r, rfl, hp⟩
      · have h1 := consumeTrailing_sim h
        cases hs : Cursor.step st (cur c td) .consumeTrailingWhitespace with
        | misuse => exact List.nil_prefix
        | stop kd => rw [hs] at h1; exact h1.elim
        | err kd k' => rw [hs] at h1; exact h1.elim
        | ok v k' =>
          rw [hs] at h1
          obtain ⟨rfl, s', h2⟩ := h1
          have h3 : (runOp .consumeTrailingWhitespace).run s = .ok .unit s' := (M.bind_ok h2).trans rfl
          rw [h3]
          dsimp only
          rw [if_pos rfl, if_pos rfl]
          exact List.prefix_refl _
      · rw [str_step (op := .consumeTrailingWhitespace) hk nofun]
        exact List.nil_prefix
    have h1 := step_sim h op hct
    unfold Cursor.run
    rw [runOps]
    cases hs : Cursor.step st k op with
    | misuse => exact List.nil_prefix
    | stop kd =>
      rw [hs] at h1
      obtain ⟨e, s', h2, rfl⟩ := h1
      rw [h2]
      exact List.prefix_cons_inj _ |>.2 List.nil_prefix
    | err kd k' =>
      rw [hs] at h1
      obtain ⟨e, s', h2, rfl, h3, h4⟩ := h1
      rw [h2]
      dsimp only
      rw [h3, if_neg (by simpa using hct), List.map_cons]
      exact List.prefix_cons_inj _ |>.2 (run_prefix ops h4)
    | ok v k' =>
      rw [hs] at h1
      obtain ⟨o, s', h2, rfl, h3⟩ := h1
      rw [h2]
      dsimp only
      split
      · exact List.prefix_refl _
      · rw [List.map_cons]
        exact List.prefix_cons_inj _ |>.2 (run_prefix ops h3)

/-- the initial state -/
theorem repC_new {t : Tops} (ht : t.Ok (cfgOf st) false) (hm : st.allowMultipleTopLevel = true ∨ t.values.length ≤ 1) :
    RepC st t (Cursor.Cur.init t.values) (new (σ := AbsSrc) ⟨t.bytes, none, []⟩ st) := by
  have hc : ∀ t : Tops, topsCount t = t.values.length := fun t => by
    induction t with
    | nil => rfl
    | cons w v rest ih => simp [topsCount, Tops.values, ih]
  have : Rep st t (.top []) (.top t) (new (σ := AbsSrc) ⟨t.bytes, none, []⟩ st) := by
    rw [new_eq]
    exact ⟨rfl, ⟨trivial, .inl (Nat.zero_le _)⟩, fun _ _ => Nat.zero_le _, ⟨ht, by simpa [hc] using hm⟩, .inl rfl⟩
  exact .of this

end
end Verif.Abs

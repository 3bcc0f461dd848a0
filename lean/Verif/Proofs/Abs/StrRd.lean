import Verif.Proofs.Abs.Skip
/-! # The string value reader -/

namespace Verif.Abs
open Reader Utf8 Json

/-- pieces of the given sizes, the last ones may be shorter or empty -/
def pieces : List Nat → Bytes → List Bytes
  | [], _ => []
  | len :: lens, bs => bs.take len :: pieces lens (bs.drop len)

/-! ## Strings are parsed in only one way -/

/-- The bytes start with the remaining part of a string literal with the text `cs`, followed by `r` -/
def V (cs : Text) (r rest : Bytes) : Prop := ∃ is, ItemsAre is cs ∧ rest = is.flatMap StrItem.bytes ++ 0x22 :: r

/-- some state with the given remaining input -/
def anySt (rest : Bytes) : St := stp Settings.default (.top []) ⟨0, 0, 0⟩ none rest

theorem V.quote {cs : Text} {r0 r : Bytes} (h : V cs r0 (0x22 :: r)) : cs = [] ∧ r0 = r := by
  obtain ⟨is, h1, h2⟩ := h
  cases h1 with
  | nil => simp only [List.flatMap_nil, List.nil_append, List.cons.injEq, true_and] at h2; exact ⟨rfl, h2.symm⟩
  | cons hi hc =>
    have e1 := readStringBytes_quote (s := anySt (0x22 :: r)) (r := r) rfl
    have e2 := readStringBytes_item (s := anySt (0x22 :: r)) hi (by rw [List.flatMap_cons, List.append_assoc] at h2; exact h2)
    rw [e1] at e2
    cases e2

theorem utf8_inj {a b : Char} (h : String.utf8EncodeChar a = String.utf8EncodeChar b) : a = b := by
  have : enc [a] = enc [b] := by simp [enc, h]
  have := enc_injective this
  cases this
  rfl

theorem V.item {cs : Text} {r0 r : Bytes} {i : StrItem} {c : Char} (hi : i.Is c) (h : V cs r0 (i.bytes ++ r)) : ∃ cs', cs = c :: cs' ∧ V cs' r0 r := by
  obtain ⟨is, h1, h2⟩ := h
  have e1 := readStringBytes_item (s := anySt (i.bytes ++ r)) hi rfl
  cases h1 with
  | nil =>
    have e2 := readStringBytes_quote (s := anySt (i.bytes ++ r)) (r := r0) h2
    rw [e1] at e2
    cases e2
  | @cons i' c' is' cs' hi' hc =>
    have e2 := readStringBytes_item (s := anySt (i.bytes ++ r)) hi' (by rw [List.flatMap_cons, List.append_assoc] at h2; exact h2)
    rw [e1] at e2
    injection e2 with e3 e4
    injection e3 with _ e3
    cases utf8_inj e3
    have e5 : r = is'.flatMap StrItem.bytes ++ 0x22 :: r0 := congrArg (fun s : St => s.src.rest) e4
    exact ⟨cs', rfl, is', hc, e5⟩

theorem V.items {is : List StrItem} {cs : Text} (h : ItemsAre is cs) : ∀ {cs0 : Text} {r0 r : Bytes}, V cs0 r0 (is.flatMap StrItem.bytes ++ r) → ∃ cs', cs0 = cs ++ cs' ∧ V cs' r0 r := by
  induction h with
  | nil => intro cs0 r0 r hv; exact ⟨cs0, rfl, hv⟩
  | @cons i c is cs hi _ ih =>
    intro cs0 r0 r hv
    rw [List.flatMap_cons, List.append_assoc] at hv
    obtain ⟨cs1, rfl, hv1⟩ := hv.item hi
    obtain ⟨cs2, rfl, hv2⟩ := ih hv1
    exact ⟨cs2, rfl, hv2⟩

theorem V.not_err {cs : Text} {r0 : Bytes} {s s' : St} {e : RErr} (h : readStringBytes.run s = .err e s') : ¬ V cs r0 s.src.rest := by
  rintro ⟨is, h1, h2⟩
  cases h1 with
  | nil => rw [readStringBytes_quote h2] at h; cases h
  | cons hi hc => rw [readStringBytes_item hi (by rw [List.flatMap_cons, List.append_assoc] at h2; exact h2)] at h; cases h

/-! ## Buffer of the string value reader -/

/-- the bytes which have been read but not delivered -/
structure SR (sr : StrReader) (pend : Bytes) : Prop where
  err : sr.error = none
  notEnd : sr.reachedEnd = false
  len : sr.utf8Buf.length = 3
  count : sr.utf8Count = pend.length
  bound : sr.utf8Start + pend.length ≤ 3
  slice : (sr.utf8Buf.drop sr.utf8Start).take pend.length = pend
  start : pend = [] → sr.utf8Start = 0

theorem SR.new : SR StrReader.new [] := ⟨rfl, rfl, rfl, rfl, by decide, rfl, fun _ => rfl⟩

variable {st : Settings} {inp : Bytes} {g : Prop} {c : Ctx} {l : Lead} {pos : Pos} {r : Bytes} {s : St}

theorem strDrain_run {sr : StrReader} {pend : Bytes} {len : Nat} (h : SR sr pend) (hl : 0 < len) :
    ∃ sr', (strDrain len sr).run s = .ok (sr', pend.take len) s ∧ SR sr' (pend.drop len) := by
  unfold strDrain
  by_cases hp : pend = []
  · subst hp
    rw [if_neg (by rw [h.count]; decide)]
    exact ⟨sr, by simp, by simpa using h⟩
  · have hpl := List.length_pos_iff.2 hp
    rw [if_pos (by rw [h.count]; exact hpl)]
    dsimp only
    have hs : BufSrc.slice? sr.utf8Buf sr.utf8Start (sr.utf8Start + min sr.utf8Count len) = some (pend.take len) := by
      unfold BufSrc.slice?
      rw [if_pos ⟨by omega, by have := h.bound; have := h.count; have := h.len; omega⟩]
      congr 1
      have : pend.take len = ((sr.utf8Buf.drop sr.utf8Start).take pend.length).take len := by rw [h.slice]
      rw [this, List.take_take, h.count, List.drop_take]
      congr 1
      omega
    rw [hs]
    dsimp only
    rw [h.count]
    by_cases hle : pend.length ≤ len
    · rw [if_pos (by simp; omega)]
      have hd : pend.drop len = [] := List.drop_eq_nil_iff.2 hle
      rw [hd]
      exact ⟨_, rfl, ⟨h.err, h.notEnd, h.len, rfl, by simp, rfl, fun _ => rfl⟩⟩
    · rw [if_neg (by simp; omega)]
      have hmin : min pend.length len = len := by omega
      rw [hmin]
      refine ⟨_, rfl, ⟨h.err, h.notEnd, h.len, by simp, ?_, ?_, ?_⟩⟩
      · have := h.bound
        simp only [List.length_drop]; omega
      · dsimp only
        have : pend.drop len = ((sr.utf8Buf.drop sr.utf8Start).take pend.length).drop len := by rw [h.slice]
        conv => rhs; rw [this, List.drop_take, List.drop_drop]
        simp
      · intro hd
        have := List.drop_eq_nil_iff.1 hd
        omega

/-- bytes for which there is no space are kept -/
theorem strConsume_keep {len : Nat} {out : Bytes} (ho : ¬ out.length < len) : ∀ {bs : Bytes} {sr : StrReader} {pend : Bytes}, SR sr pend → sr.utf8Start = 0 → pend.length + bs.length ≤ 3 →
    ∃ sr', (strConsume len bs sr out).run s = .ok (sr', out) s ∧ SR sr' (pend ++ bs) := by
  intro bs
  induction bs with
  | nil => intro sr pend h _ _; exact ⟨sr, rfl, by simpa using h⟩
  | cons b bs ih =>
    intro sr pend h h0 hl
    simp only [List.length_cons] at hl
    unfold strConsume
    rw [if_neg ho, if_pos (by rw [h.count, h.len]; omega)]
    have hsl := h.slice
    rw [h0, List.drop_zero] at hsl
    obtain ⟨sr', h1, h2⟩ := ih (sr := { sr with utf8Buf := sr.utf8Buf.set sr.utf8Count b, utf8Count := sr.utf8Count + 1 }) (pend := pend ++ [b])
      ⟨h.err, h.notEnd, by simpa using h.len, by simp [h.count], by simp [h0]; omega, by
        simp only [h0, List.drop_zero, List.length_append, List.length_cons, List.length_nil]
        rw [h.count, List.take_add_one, List.take_set_of_le (Nat.le_refl _), hsl]
        have : pend.length < sr.utf8Buf.length := by rw [h.len]; omega
        simp [this], by simp⟩ h0 (by simp; omega)
    exact ⟨sr', h1, by simpa using h2⟩

theorem strConsume_run {len : Nat} : ∀ {bs : Bytes} {sr : StrReader} {out : Bytes}, SR sr [] → bs.length ≤ (len - out.length) + 3 → out.length ≤ len →
    ∃ sr', (strConsume len bs sr out).run s = .ok (sr', out ++ bs.take (len - out.length)) s ∧ SR sr' (bs.drop (len - out.length)) := by
  intro bs
  induction bs with
  | nil => intro sr out h _ _; exact ⟨sr, by simp; rfl, by simpa using h⟩
  | cons b bs ih =>
    intro sr out h hl ho
    by_cases hlt : out.length < len
    · unfold strConsume
      rw [if_pos hlt]
      simp only [List.length_cons] at hl
      obtain ⟨sr', h1, h2⟩ := ih (out := out ++ [b]) h (by simp; omega) (by simp; omega)
      have e : len - out.length = (len - (out ++ [b]).length) + 1 := by simp; omega
      rw [e, List.take_succ_cons, List.drop_succ_cons]
      exact ⟨sr', by simpa using h1, h2⟩
    · obtain ⟨sr', h1, h2⟩ := strConsume_keep (s := s) (bs := b :: bs) hlt h (h.start rfl) (by simp only [List.length_nil]; omega)
      have e : len - out.length = 0 := by omega
      rw [e, List.take_zero, List.drop_zero, List.append_nil]
      exact ⟨sr', h1, by simpa using h2⟩

/-! ## Reading -/

/-- result of reading into a buffer of size `len`; `rest` and `pos` describe the state before -/
def RPost (st : Settings) (c : Ctx) (l : Lead) (pos : Pos) (rest : Bytes) (len : Nat) (pre : Bytes) (res : StrReader × Bytes) (s' : St) : Prop :=
  ∃ is cs, ItemsAre is cs ∧
    ((res.1.error = none ∧ res.1.reachedEnd = true ∧ res.2 = pre ++ enc cs ∧ res.2.length < len ∧ ∃ r', rest = is.flatMap StrItem.bytes ++ 0x22 :: r' ∧
        ∀ v, s' = stp st (c.add l v) (pos.over (is.flatMap StrItem.bytes ++ [0x22])) none r') ∨
      (∃ pend, SR res.1 pend ∧ res.2.length = len ∧ res.2 ++ pend = pre ++ enc cs ∧ ∃ r', rest = is.flatMap StrItem.bytes ++ r' ∧
        s' = active st c (pos.over (is.flatMap StrItem.bytes)) r'))

/-- errors: the string is malformed -/
def RErrOk (rest : Bytes) (e : RErr) : Prop := DataErr e ∧ ∀ cs r0, ¬ V cs r0 rest

theorem isEmpty_snoc {α : Type} (xs : List α) (x : α) : (xs ++ [x]).isEmpty = false := by cases xs <;> rfl

theorem mv_active {bs r' : Bytes} : mv (active st c pos r) bs r' = active st c (pos.over bs) r' := rfl

theorem strReadLoop_wp (hs : c.Slot l) {len : Nat} : ∀ {fuel : Nat} {sr : StrReader} {out pend rest : Bytes} {pos : Pos}, SR sr pend → out.length ≤ len → (out.length < len → pend = []) → len ≤ out.length + fuel →
    Wp (strReadLoop len fuel sr out) (active st c pos rest) (RPost st c l pos rest len (out ++ pend)) (fun e _ => RErrOk rest e) := by
  intro fuel
  induction fuel with
  | zero =>
    intro sr out pend rest pos h ho hp hf
    unfold strReadLoop
    rw [if_neg (by omega)]
    exact Wp.pure ⟨[], [], .nil, .inr ⟨pend, h, by dsimp only; omega, by simp [enc], rest, rfl, rfl⟩⟩
  | succ fuel ih =>
    intro sr out pend rest pos h ho hp hf
    unfold strReadLoop
    refine Wp.ite (fun hlt => ?_) fun hlt => ?_
    · cases hp hlt
      rw [if_neg (by rw [h.start rfl, h.count]; decide)]
      have hrb := readStringBytes_lo (s := active st c pos rest) rfl
      refine Wp.bind ?_
      unfold Wp
      cases hrun : readStringBytes.run (active st c pos rest) with
      | err e s' => exact ⟨hrb.err hrun, fun cs r0 => V.not_err hrun⟩
      | ok p s' =>
        rcases hrb.ok hrun with ⟨r', hr, rfl, rfl⟩ | ⟨i, ch, r', hi, hr, rfl, rfl⟩
        · dsimp only
          have hr : rest = 0x22 :: r' := hr
          refine Wp.bind_ok (a := (sr, out)) rfl ?_
          dsimp only
          rw [if_pos rfl]
          refine Wp.bind_ok (a := ()) rfl ?_
          refine Wp.bind_ok (onValueEnd_run0 (c := c) (st := st) (l := l) (v := .null) (pos := pos.over [0x22]) hs) ?_
          refine Wp.pure ⟨[], [], .nil, .inl ⟨h.err, rfl, by simp [enc], hlt, r', hr, fun v => ?_⟩⟩
          show stp st (c.add l .null) _ none r' = _
          cases c <;> cases l <;> first | exact hs.elim | skip
          all_goals simp [stp, Ctx.add, Ctx.isEmpty, Ctx.emn, Ctx.stack, Ctx.path, lastName_append, isEmpty_snoc]
        · have hr : rest = i.bytes ++ r' := hr
          subst hr
          dsimp only
          have hlen : (String.utf8EncodeChar ch).length ≤ 4 := by
            rw [String.length_utf8EncodeChar]; exact Char.utf8Size_le_four ch
          obtain ⟨sr', h1, h2⟩ := strConsume_run (s := mv (active st c pos (i.bytes ++ r')) i.bytes r') (len := len) (bs := String.utf8EncodeChar ch) (sr := sr) (out := out) h (by omega) ho
          refine Wp.bind_ok h1 ?_
          dsimp only
          rw [if_neg (by exact Bool.false_ne_true), mv_active]
          have hpos : 0 < (String.utf8EncodeChar ch).length := by
            rw [String.length_utf8EncodeChar]; exact Char.utf8Size_pos ch
          refine (ih (pos := pos.over i.bytes) h2 (by rw [List.length_append, List.length_take]; omega) (fun hlt' => ?_) (by rw [List.length_append, List.length_take]; omega)).mono ?_ ?_
          · refine List.drop_eq_nil_iff.2 ?_
            rw [List.length_append, List.length_take] at hlt'
            omega
          · rintro res s' ⟨is, cs, his, hh⟩
            have hnb : ∀ b, NoSplit i.bytes b := fun b => (StrItem.Is.noBreak hi).left
            refine ⟨i :: is, ch :: cs, .cons hi his, ?_⟩
            have e : out ++ [] ++ enc (ch :: cs) = out ++ List.take (len - out.length) (String.utf8EncodeChar ch) ++ List.drop (len - out.length) (String.utf8EncodeChar ch) ++ enc cs := by
              rw [List.append_nil, List.append_assoc out, List.take_append_drop, List.append_assoc]; rfl
            rw [e, List.flatMap_cons]
            refine hh.imp ?_ ?_
            · rintro ⟨a1, a2, a3, a4, r2, rfl, a5⟩
              refine ⟨a1, a2, a3, a4, r2, by simp, fun v => ?_⟩
              rw [a5 v, Pos.over_over _ (hnb _)]; simp
            · rintro ⟨pend, a1, a2, a3, r2, rfl, a5⟩
              refine ⟨pend, a1, a2, a3, r2, by simp, ?_⟩
              rw [a5, Pos.over_over _ (hnb _)]
          · rintro e s' ⟨h1, h2⟩
            refine ⟨h1, fun cs r0 hV => ?_⟩
            obtain ⟨cs', _, hV⟩ := hV.item hi
            exact h2 _ _ hV
    · exact Wp.pure ⟨[], [], .nil, .inr ⟨pend, h, by dsimp only; omega, by simp [enc], rest, rfl, rfl⟩⟩

theorem strReadImpl_wp (hs : c.Slot l) {len : Nat} {sr : StrReader} {pend : Bytes} (h : SR sr pend) :
    Wp (strReadImpl len sr) (active st c pos r) (RPost st c l pos r len pend) (fun e _ => RErrOk r e) := by
  unfold strReadImpl
  by_cases hl : len = 0
  · subst hl
    rw [if_pos (by simp)]
    exact Wp.pure ⟨[], [], .nil, .inr ⟨pend, h, rfl, by simp [enc], r, rfl, rfl⟩⟩
  · rw [if_neg (by simp [h.notEnd, hl])]
    obtain ⟨sr', h1, h2⟩ := strDrain_run (s := active st c pos r) h (Nat.pos_of_ne_zero hl)
    refine Wp.bind_ok h1 ?_
    dsimp only
    have := strReadLoop_wp (st := st) hs (len := len) (fuel := len) (sr := sr') (out := pend.take len) (rest := r) (pos := pos) h2 (by simp; omega)
      (fun hlt => List.drop_eq_nil_iff.2 (by simp at hlt; omega)) (by omega)
    rw [List.take_append_drop] at this
    exact this

theorem strReads_ended {sr : StrReader} (h : sr.reachedEnd = true) : ∀ lens : List Nat, (strReadsOk lens sr).run s = .ok (sr, lens.map fun _ => []) s := by
  intro lens
  induction lens with
  | nil => rfl
  | cons len lens ih =>
    unfold strReadsOk
    have : (strReadImpl len sr : R AbsSrc _).run s = .ok (sr, []) s := by
      unfold strReadImpl
      rw [h, Bool.true_or, if_pos rfl]
      rfl
    refine (M.bind_ok this).trans ?_
    dsimp only
    exact (M.bind_ok ih).trans rfl

theorem pieces_nil : ∀ lens : List Nat, pieces lens [] = lens.map fun _ => [] := by
  intro lens
  induction lens with
  | nil => rfl
  | cons len lens ih => simp [pieces, ih]

/-- result of reading with buffers of the given sizes -/
def RsPost (st : Settings) (c : Ctx) (l : Lead) (pos : Pos) (rest : Bytes) (lens : List Nat) (pre : Bytes) (res : StrReader × List Bytes) (s' : St) : Prop :=
  ∃ is cs, ItemsAre is cs ∧ res.2 = pieces lens (pre ++ enc cs) ∧
    ((res.1.error = none ∧ res.1.reachedEnd = true ∧ (pre ++ enc cs).length < lens.sum ∧ ∃ r', rest = is.flatMap StrItem.bytes ++ 0x22 :: r' ∧
        ∀ v, s' = stp st (c.add l v) (pos.over (is.flatMap StrItem.bytes ++ [0x22])) none r') ∨
      (SR res.1 ((pre ++ enc cs).drop lens.sum) ∧ lens.sum ≤ (pre ++ enc cs).length ∧ ∃ r', rest = is.flatMap StrItem.bytes ++ r' ∧
        s' = active st c (pos.over (is.flatMap StrItem.bytes)) r'))

theorem itemsAre_append {is is' : List StrItem} {cs cs' : Text} (h : ItemsAre is cs) (h' : ItemsAre is' cs') : ItemsAre (is ++ is') (cs ++ cs') := by
  induction h with
  | nil => exact h'
  | cons hi _ ih => exact .cons hi ih

theorem pieces_append : ∀ {lens : List Nat} {a : Bytes} (b : Bytes), lens.sum ≤ a.length → pieces lens (a ++ b) = pieces lens a := by
  intro lens
  induction lens with
  | nil => intro a b _; rfl
  | cons len lens ih =>
    intro a b h
    simp only [List.sum_cons] at h
    have h1 : len ≤ a.length := by omega
    simp only [pieces, List.take_append_of_le_length h1, List.drop_append_of_le_length h1]
    rw [ih b (by simp; omega)]

theorem strReadsOk_wp (hs : c.Slot l) : ∀ {lens : List Nat} {sr : StrReader} {pend r : Bytes} {pos : Pos}, SR sr pend →
    Wp (strReadsOk lens sr) (active st c pos r) (RsPost st c l pos r lens pend) (fun e _ => RErrOk r e) := by
  intro lens
  induction lens with
  | nil => intro sr pend r pos h; exact Wp.pure ⟨[], [], .nil, rfl, .inr ⟨by simpa [enc] using h, by simp, r, rfl, rfl⟩⟩
  | cons len lens ih =>
    intro sr pend r pos h
    unfold strReadsOk
    refine Wp.bind' (strReadImpl_wp hs h) ?_
    rintro ⟨sr1, out⟩ s1 ⟨is, cs, his, ⟨h1, h2, h3, h4, r', rfl, h5⟩ | ⟨pend', h1, h2, h3, r', rfl, rfl⟩⟩
    · dsimp only at h1 h2 h3 h4 ⊢
      refine Wp.bind_ok (strReads_ended h2 lens) ?_
      subst h3
      refine Wp.pure ⟨is, cs, his, ?_, .inl ⟨h1, h2, ?_, r', rfl, h5⟩⟩
      · show _ :: _ = _ :: _
        rw [List.take_of_length_le (by omega), List.drop_eq_nil_of_le (by omega), pieces_nil]
      · simp only [List.sum_cons]
        omega
    · dsimp only at h1 h2 h3 ⊢
      have hnb : ∀ b, NoSplit (is.flatMap StrItem.bytes) b := fun b => (itemsAre_noBreak his).left
      refine Wp.bind (((ih h1).mono ?_ ?_))
      · rintro ⟨sr2, outs⟩ s2 ⟨is2, cs2, his2, ho, hh⟩
        dsimp only at ho hh ⊢
        refine Wp.pure ⟨is ++ is2, cs ++ cs2, itemsAre_append his his2, ?_, ?_⟩
        · dsimp only
          rw [ho, enc_append, ← List.append_assoc, ← h3]
          show _ = _ :: _
          rw [List.append_assoc, List.take_append_of_le_length (by omega), List.drop_append_of_le_length (by omega), List.take_of_length_le (by omega),
            List.drop_eq_nil_of_le (by omega), List.nil_append]
        · dsimp only
          rw [enc_append, ← List.append_assoc pend, ← h3, List.flatMap_append, List.sum_cons]
          refine hh.imp ?_ ?_
          · rintro ⟨a1, a2, a3, r2, rfl, a5⟩
            refine ⟨a1, a2, ?_, r2, by simp, fun v => ?_⟩
            · simp only [List.length_append] at a3 ⊢; omega
            · rw [a5 v, Pos.over_over _ (hnb _)]; simp
          · rintro ⟨a1, a2, r2, rfl, a5⟩
            refine ⟨?_, ?_, r2, by simp, ?_⟩
            · rw [List.append_assoc, ← h2, ← List.drop_drop, List.drop_left]
              exact a1
            · simp only [List.length_append] at a2 ⊢; omega
            · rw [a5, Pos.over_over _ (hnb _)]
      · rintro e s2 ⟨h1, h2⟩
        refine ⟨h1, fun cs0 r0 hV => ?_⟩
        obtain ⟨cs', _, hV⟩ := V.items his hV
        exact h2 _ _ hV

/-- result of `next_string_reader`, followed by reads -/
def SPost (st : Settings) (inp : Bytes) (g : Prop) (c : Ctx) (s : St) (lens : List Nat) (rs : List Bytes) (s' : St) : Prop :=
  (∃ x : Str, x.Ok ∧ rs = pieces lens (enc x.text) ∧ (enc x.text).length < lens.sum ∧ VPost st inp g c s (.str x) s') ∨
  (∃ cs pos r, rs = pieces lens (enc cs) ∧ lens.sum ≤ (enc cs).length ∧ s' = active st c pos r ∧ Inv st inp g { c.mode with str := true } s' ∧ mu s' ≤ mu s)

theorem stringReader_wp (h : At st inp g c s) (hc : CanPeek st c) (he : c.emn = false) (lens : List Nat) {K : Usage.Mode → Prop} (hK : K c.mode := by trivial) :
    Wp (runOp (.stringReader lens)) s (fun o s' => ∃ rs, o = .reads rs ∧ SPost st inp g c s lens rs s') (EOk st inp g K) := by
  show Wp (do let sr ← nextStringReader; let (_, rs) ← strReadsOk lens sr; pure (.reads rs) : R AbsSrc Out) s _ _
  unfold nextStringReader
  refine Wp.bind (sev_wp h hc he hK ?_)
  intro p l pos r hP hm hv ht _
  cases typeOf_string hv ht
  refine Wp.bind_ok (a := ()) rfl (Wp.pure ?_)
  show Wp _ (active st c (pos.over [0x22]) r) _ _
  have hsl := hP.lead.slot rfl
  refine Wp.bind ((strReadsOk_wp hsl SR.new).mono ?_ fun e s h => EOk.data h.1)
  rintro ⟨sr, rs⟩ s' ⟨is, cs, his, ho, ⟨h1, h2, h3, r', rfl, h5⟩ | ⟨h1, h2, r', rfl, rfl⟩⟩
  · refine Wp.pure ⟨rs, rfl, .inl ⟨⟨is, cs⟩, his, ho, h3, ?_⟩⟩
    rw [h5 (.str ⟨is, cs⟩), Pos.over_over _ plain_quote.noBreak.left]
    exact str_post (x := ⟨is, cs⟩) hP hm his
  · refine Wp.pure ⟨rs, rfl, .inr ⟨cs, _, r', ho, h2, rfl, ?_, ?_⟩⟩
    · refine .active (l := l) (0x22 :: (is.flatMap StrItem.bytes ++ r')) (is.flatMap StrItem.bytes) hP.wf hP.depth hsl fun hg => ?_
      obtain ⟨a1, a2, a3⟩ := hP.good hg
      refine ⟨a1, hP.lead, a2, rfl, ?_, is, cs, his, rfl⟩
      rw [Pos.over_over _ plain_quote.noBreak.left, a3, posOf_over (plain_quote.noBreak.append (itemsAre_noBreak his)).right]
      simp
    · rw [mu_stp_tok (by decide)] at hm
      refine Nat.le_trans ?_ hm
      show r'.length + 0 ≤ _
      simp only [List.length_append]
      omega

end Verif.Abs

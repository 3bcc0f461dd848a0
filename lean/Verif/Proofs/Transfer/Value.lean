import Verif.Model.Transfer
import Verif.Proofs.Abs.ReadAt
import Verif.Proofs.Writer.Seq
/-!
# `transfer_to` writes the value which is read
-/

namespace Verif.Transfer
open Reader Writer Json Utf8
open WSpec (Written Step Steps Denotes Rejected strLit lead SvWrites)
open Abs (St Ctx Lead Pos stp mv Fits Front behind costV costI costM startOf tailOf SepOk Restricted Mem cfgOf)

variable {st : Settings} {wst : WSettings} {wc : Core} {w : Written} {s s' : St}

/-! ## Single calls -/

theorem onReader_emits {α : Type} {m : R AbsSrc α} {a : α} (h : m.run s = .ok a s') (c : Core) : Emits (onReader m) (s, c) [] a (s', c) := by
  unfold Emits onReader
  dsimp only
  rw [h]
  rfl

theorem onWriter_emits {α : Type} {m : W α} {c c' : Core} {bs : Bytes} {a : α} (h : Emits m c bs a c') (s : St) : Emits (onWriter m) (s, c) bs a (s, c') := by
  unfold Emits at *
  show ((m.run c).bind _).ideal = _
  rw [ideal_bind, h]
  dsimp only
  rw [Tree.ideal, List.append_nil]

/-- the call behind `wop` -/
theorem emits_unit {m : W Unit} {c c' : Core} {bs : Bytes} {out : WOut} (h : Emits (m >>= fun _ => pure .unit) c bs out c') : Emits m c bs () c' := by
  rcases outcome m c with ⟨b, a, s, h1⟩ | ⟨b, e, s, h1⟩ | ⟨b, p, h1⟩
  · obtain ⟨rfl, -, rfl⟩ := (h1.last (f := fun _ => pure WOut.unit) emits_pure).unique h
    exact h1
  · have h2 : Errs (m >>= fun _ => pure WOut.unit) c b e s := h1.bind
    unfold Errs Emits at *
    rw [h2] at h
    cases h
  · have h2 : Panics (m >>= fun _ => pure WOut.unit) c b p := h1.bind
    unfold Panics Emits at *
    rw [h2] at h
    cases h

/-- `m` is allowed and leads to `w'` -/
theorem step_emits {op : WOp} {w' : Written} {m : W Unit} (h : WInv wst wc w) (hok : WOk wst w) (hop : OpOk op) (hs : Step wst w op w') (hw : w'.str = none) (hr : ¬ Rejected op)
    (hm : wop op = (m >>= fun _ => pure .unit)) : ∃ bs wc', Emits m wc bs () wc' ∧ w'.bytes wst = w.bytes wst ++ bs ∧ WInv wst wc' w' := by
  cases wop_outcome h hok op hop with
  | done w1 out bs c' h1 h2 h3 h4 h5 h6 =>
    obtain rfl := like_eq (step_unique hs h1) hw
    rw [hm] at h2
    exact ⟨bs, c', emits_unit h2, h3, h4⟩
  | rejected h1 => exact absurd h1 hr
  | panic u h1 h2 => exact absurd ⟨_, hs⟩ h2

theorem add_str {v : JVal} : (w.add v).str = w.str := by
  unfold Written.add
  split <;> rfl

/-! ## Strings -/

theorem svWriteStr_emits {c : Core} (h : SvInv c []) (t : Text) : Emits (svWriteStr t) c (strLit c.settings t).body () c := by
  refine track_emits h.error (emits_get.seq ?_)
  rw [if_neg (by rw [h.pos]; simp)]
  exact piece_emits t c

theorem fill_run (n : Nat) : ∀ {s : St} {is : List StrItem} {cs : Text} {r out : Bytes}, ItemsAre is cs → s.src.rest = is.flatMap StrItem.bytes ++ 0x22 :: r →
    1 ≤ n → transferBufSize ≤ n + out.length → out.length ≤ transferBufSize →
    ∃ is1 is2 cs1 cs2, is = is1 ++ is2 ∧ cs = cs1 ++ cs2 ∧
      (((transferFill n out).run s = .ok (true, out ++ enc cs1) (mv s (is1.flatMap StrItem.bytes ++ [0x22]) r) ∧ is2 = [] ∧ cs2 = []) ∨
        ((transferFill n out).run s = .ok (false, out ++ enc cs1) (mv s (is1.flatMap StrItem.bytes) (is2.flatMap StrItem.bytes ++ 0x22 :: r)) ∧ ItemsAre is2 cs2 ∧
          (out = [] → is1 ≠ []))) := by
  induction n with
  | zero => intro s is cs r out _ _ h; omega
  | succ n ih =>
    intro s is cs r out h hr _ hb ho
    rw [transferFill]
    by_cases hc : transferBufSize - out.length ≥ maxBytesPerChar
    · rw [if_pos hc]
      cases h with
      | nil =>
        refine ⟨[], [], [], [], rfl, rfl, .inl ⟨?_, rfl, rfl⟩⟩
        rw [M.bind_ok (Abs.readStringBytes_quote hr)]
        dsimp only
        rw [if_neg (by simpa using ho), if_pos rfl]
        rfl
      | cons hi hs =>
        rename_i i c is cs
        rw [List.flatMap_cons, List.append_assoc] at hr
        rw [M.bind_ok (Abs.readStringBytes_item hi hr)]
        dsimp only
        have hl := encChar_length c
        unfold transferBufSize maxBytesPerChar at *
        rw [if_neg (by omega), if_neg (by exact Bool.false_ne_true)]
        obtain ⟨is1, is2, cs1, cs2, e1, e2, h3⟩ := ih (s := mv s i.bytes (is.flatMap StrItem.bytes ++ 0x22 :: r)) (out := out ++ String.utf8EncodeChar c) hs rfl (by omega)
          (by rw [List.length_append]; omega) (by rw [List.length_append]; omega)
        refine ⟨i :: is1, is2, c :: cs1, cs2, by rw [e1]; rfl, by rw [e2]; rfl, ?_⟩
        have hn : ∀ b, Abs.NoSplit i.bytes b := fun b => (Abs.StrItem.Is.noBreak hi).left
        rcases h3 with ⟨h3, h4⟩ | ⟨h3, h4, -⟩
        · refine .inl ⟨?_, h4⟩
          rw [h3, Abs.mv_mv _ _ _ (hn _)]
          simp [Verif.enc_cons]
        · refine .inr ⟨?_, h4, fun _ => nofun⟩
          rw [h3, Abs.mv_mv _ _ _ (hn _)]
          simp [Verif.enc_cons]
    · rw [if_neg hc]
      refine ⟨[], is, [], cs, rfl, rfl, .inr ⟨?_, h, ?_⟩⟩
      · have : mv s [] (is.flatMap StrItem.bytes ++ 0x22 :: r) = s := by rw [← hr]; rfl
        rw [List.flatMap_nil, this]
        simp [enc]
      · rintro rfl
        exact absurd hc (by decide)

theorem stringLoop_emits (n : Nat) : ∀ {s : St} {is : List StrItem} {cs : Text} {r : Bytes} {c : Core}, ItemsAre is cs → s.src.rest = is.flatMap StrItem.bytes ++ 0x22 :: r →
    is.length < n → SvInv c [] → Emits (transferStringLoop n) (s, c) (strLit c.settings cs).body () (mv s (is.flatMap StrItem.bytes ++ [0x22]) r, c) := by
  induction n with
  | zero => intro s is cs r c _ _ h; omega
  | succ n ih =>
    intro s is cs r c h hr hn hc
    obtain ⟨is1, is2, cs1, cs2, rfl, rfl, h3⟩ := fill_run transferBufSize (out := []) h hr (by decide) (by decide) (by decide)
    have piece : ∀ {b s'}, (transferFill transferBufSize []).run s = .ok (b, [] ++ enc cs1) s' → transferPiece.run s = .ok (b, cs1) s' := by
      intro b s' h
      unfold transferPiece
      rw [M.bind_ok h]
      dsimp only
      rw [toStrUnchecked, List.nil_append, decodeUtf8_enc]
      rfl
    rw [transferStringLoop]
    rcases h3 with ⟨h3, rfl, rfl⟩ | ⟨h3, h4, h5⟩
    · refine Emits.seq (onReader_emits (piece h3) c) ?_
      refine (onWriter_emits (svWriteStr_emits hc cs1) _).bind (bs' := []) ?_ |>.cast ?_
      · simp only [List.append_nil]
        exact emits_pure
      · simp
    · refine Emits.seq (onReader_emits (piece h3) c) ?_
      have hl : is2.length < n := by
        have : 0 < is1.length := List.length_pos_iff.2 (h5 rfl)
        rw [List.length_append] at hn
        omega
      have := ih (s := mv s (is1.flatMap StrItem.bytes) (is2.flatMap StrItem.bytes ++ 0x22 :: r)) h4 rfl hl hc
      rw [Abs.mv_mv _ _ _ ((Abs.itemsAre_noBreak h4).append Abs.plain_quote.noBreak).right, ← List.append_assoc, ← List.flatMap_append] at this
      refine (onWriter_emits (svWriteStr_emits hc cs1) _).bind this |>.cast ?_
      rw [WSpec.body_append]

theorem string_emits {c : Ctx} {l : Lead} {pos : Pos} {x : Str} {r : Bytes} (hs : c.Slot l) (hx : x.Ok) (h : WInv wst wc w) (hc : w.CanAdd wst) :
    ∃ bs wc', Emits transferString (stp st c pos (some .stringStart) (x.body ++ 0x22 :: r), wc) bs () (stp st (c.add l (.str x)) (pos.over x.bytes) none r, wc') ∧
      (w.add (.str x.text)).bytes wst = w.bytes wst ++ bs ∧ WInv wst wc' (w.add (.str x.text)) := by
  obtain ⟨c1, h1, h2⟩ := stringValueWriter_emits h hc
  obtain rfl := h2.settings
  refine ⟨lead c1.settings w.tops w.frames ++ ([0x22] ++ ((strLit c1.settings x.text).body ++ [0x22])), _, ?_, ?_, winv_finished (v := .str x.text) h2 hc.1 (Same.refl _)⟩
  · unfold transferString
    refine Emits.seq (onReader_emits (Abs.sev_ok (t := .string) (chk := false) hs.emn rfl rfl Bool.noConfusion) _) ?_
    rw [Abs.tok_str, ← List.append_assoc]
    refine (onWriter_emits h1 _).bind ?_
    refine emits_get.seq ?_
    dsimp only
    have hloop := stringLoop_emits (fuel (stp st c (pos.over [0x22]) none (x.body ++ 0x22 :: r))) (s := stp st c (pos.over [0x22]) none (x.body ++ 0x22 :: r)) (r := r) hx rfl ?_ (SvInv.new c1)
    · refine hloop.bind ?_
      refine (onWriter_emits (svFinish_emits (SvInv.new c1)) _).last ?_
      refine onReader_emits ?_ _
      rw [Abs.mv_stp, show x.items.flatMap StrItem.bytes = x.body from rfl, Abs.over_str pos hx]
      exact Abs.onValueEnd_run0 hs
    · have := Abs.itemsAre_length hx
      rw [show x.items.flatMap StrItem.bytes = x.body from rfl] at this
      show _ < (x.body ++ 0x22 :: r).length + 2
      rw [List.length_append]
      omega
  · rw [WSpec.add_bytes hc]
    simp [WSpec.cst, Cst.bytes, Str.bytes]

/-! ## Values -/

/-- rest of an iteration of the loop of `transfer_to` -/
def transferRest (fuel d : Nat) : X AbsSrc Unit := do
  let k ← transferStart
  if d + k == 0 then pure () else transferLoop fuel (d + k)

/-- what is done after the value -/
def transferFinish (d fuel : Nat) : X AbsSrc Unit := if d = 0 then pure () else transferLoop fuel d

/-- `m` reads up to `s'`, writes what is missing from `w` to `w'`, and then does `next` -/
def Moves (wst : WSettings) (m : X AbsSrc Unit) (s : St) (wc : Core) (w : Written) (next : X AbsSrc Unit) (s' : St) (w' : Written) : Prop :=
  ∃ bs wc', WInv wst wc' w' ∧ WOk wst w' ∧ w'.bytes wst = w.bytes wst ++ bs ∧ ∀ bs' t, Emits next (s', wc') bs' () t → Emits m (s, wc) (bs ++ bs') () t

theorem Moves.trans {m m' m'' : X AbsSrc Unit} {s'' : St} {w' w'' : Written} (h : Moves wst m s wc w m' s' w') (h' : ∀ wc', WInv wst wc' w' → WOk wst w' → Moves wst m' s' wc' w' m'' s'' w'') :
    Moves wst m s wc w m'' s'' w'' := by
  obtain ⟨bs, wc', h1, h2, h3, h4⟩ := h
  obtain ⟨bs', wc'', h5, h6, h7, h8⟩ := h' wc' h1 h2
  refine ⟨bs ++ bs', wc'', h5, h6, by rw [h7, h3, List.append_assoc], fun bs'' t ht => ?_⟩
  rw [List.append_assoc]
  exact h4 _ _ (h8 _ _ ht)

/-- the result only depends on the state afterwards -/
theorem Moves.cast {m next : X AbsSrc Unit} {s'' : St} {w' w'' : Written} (h : Moves wst m s wc w next s' w') (hs : s' = s'') (hw : w' = w'') : Moves wst m s wc w next s'' w'' := by
  subst hs hw
  exact h

/-- a call of the reader in front -/
theorem Moves.reader {α : Type} {m : R AbsSrc α} {f : α → X AbsSrc Unit} {a : α} {next : X AbsSrc Unit} {s'' : St} {w' : Written} (h : m.run s = .ok a s')
    (hf : Moves wst (f a) s' wc w next s'' w') : Moves wst (onReader m >>= f) s wc w next s'' w' := by
  obtain ⟨bs, wc', h1, h2, h3, h4⟩ := hf
  exact ⟨bs, wc', h1, h2, h3, fun bs' t ht => (onReader_emits h wc).seq (h4 bs' t ht)⟩

/-- a call of the writer in front -/
theorem Moves.writer {op : WOp} {w' : Written} {m : W Unit} {next : X AbsSrc Unit} {f : Unit → X AbsSrc Unit} (h : WInv wst wc w) (hok : WOk wst w) (hop : OpOk op) (hs : Step wst w op w')
    (hw : w'.str = none) (hr : ¬ Rejected op) (hm : wop op = (m >>= fun _ => pure .unit)) (hn : next = f ()) : Moves wst (onWriter m >>= f) s wc w next s w' := by
  obtain ⟨bs, wc', h1, h2, h3⟩ := step_emits h hok hop hs hw hr hm
  subst hn
  exact ⟨bs, wc', h3, hok.step hs, h2, fun bs' t ht => (onWriter_emits h1 s).bind ht⟩

theorem Moves.refl {m : X AbsSrc Unit} (h : WInv wst wc w) (hok : WOk wst w) : Moves wst m s wc w m s w :=
  ⟨[], wc, h, hok, by simp, fun _ _ ht => ht⟩

theorem finish_zero (n : Nat) (d : Nat) : (if d + 0 == 0 then pure () else transferLoop n (d + 0)) = transferFinish d n := by
  unfold transferFinish
  cases d <;> rfl

theorem canAdd_arr {tops : List JVal} {vs : List JVal} {fs : List WSpec.Frame} : Written.CanAdd wst ⟨tops, .arr vs :: fs, none⟩ := ⟨rfl, trivial⟩

theorem bindA {σ ε α β γ : Type} (m : T ε σ α) (f : α → T ε σ β) (g : β → T ε σ γ) : ((m >>= f) >>= g) = (m >>= fun a => f a >>= g) := by
  have hT : ∀ {α β γ : Type} (t : Tree α) (f : α → Tree β) (g : β → Tree γ), (t.bind f).bind g = t.bind fun a => (f a).bind g := by
    intro α β γ t f g
    induction t with
    | ret a => rfl
    | panic p => rfl
    | emit bs k ih => exact congrArg (Tree.emit bs) (funext ih)
    | flush k ih => exact congrArg Tree.flush (funext ih)
  show T.mk _ = T.mk _
  congr 1
  funext s
  refine (hT _ _ _).trans (congrArg _ (funext fun x => ?_))
  rcases x with ⟨r, s'⟩
  cases r <;> rfl

theorem peek_run {c : Ctx} {l : Lead} {pos : Pos} {v : Cst} {r : Bytes} (h : c.Slot l) :
    Reader.peek.run (stp st c pos (some (startOf v)) r) = .ok (Abs.typeOf (startOf v)) (stp st c pos (some (startOf v)) r) := by
  unfold Reader.peek
  rw [Abs.run_get, if_neg (by show ¬ c.emn = true; rw [h.emn]; decide), M.bind_ok Abs.pi_pk, Abs.mapPeeked_value (Abs.isValue_start v)]

theorem loop_eq (n d : Nat) : transferLoop (σ := AbsSrc) (n + 1) d = (onReader (atContainerEnd d) >>= fun atEnd =>
    if atEnd then transferEnd >>= fun _ => transferFinish (d - 1) n else transferName >>= fun _ => transferRest n d) := by
  rw [transferLoop]
  congr 1
  funext b
  cases b
  · exact (bindA _ _ _).trans (congrArg _ (funext fun _ => bindA _ _ _))
  · refine (bindA _ _ _).trans (congrArg _ (funext fun _ => ?_))
    show (if (d - 1 == 0) = true then _ else _) = _
    unfold transferFinish
    cases d - 1 <;> rfl

theorem name_none (he : s.expectsMemberName = false) : Emits transferName (s, wc) [] () (s, wc) := by
  refine emits_get.seq ?_
  dsimp only
  rw [he]
  exact emits_pure

theorem loop_top {n : Nat} {t : St × Core} {bs : Bytes} (he : s.expectsMemberName = false) (h : Emits (transferRest n 0) (s, wc) bs () t) : Emits (transferLoop (n + 1) 0) (s, wc) bs () t := by
  rw [loop_eq]
  exact (onReader_emits (a := false) (s' := s) rfl wc).seq ((name_none he).seq h)

theorem end_run {d : Nat} {b : Bool} (hn : hasNext.run s = .ok b s') : (atContainerEnd (d + 1)).run s = .ok (!b) s' := by
  unfold atContainerEnd
  exact (M.bind_ok hn).trans rfl

/-- `transfer_to` starts with `peek` -/
theorem rest_peek {n d : Nat} {p : Peeked} {bs : Bytes} {t : St × Core} (hp : Abs.PeekTo p s s') (he : s.expectsMemberName = false) (h : Emits (transferRest n d) (s', wc) bs () t) :
    Emits (transferRest n d) (s, wc) bs () t := by
  have h1 : (onReader Reader.peek).run (s, wc) = (onReader Reader.peek).run (s', wc) := by
    unfold onReader
    dsimp only
    rw [hp.peek he, hp.refl.peek (hp.emn.trans he)]
  have h2 : (transferRest n d).run (s, wc) = (transferRest n d).run (s', wc) := by
    unfold transferRest transferStart
    rw [T.run_bind, T.run_bind, T.run_bind, T.run_bind, h1]
  unfold Emits at *
  rw [h2]
  exact h

/-- a scalar value -/
theorem rest_scalar {n d : Nat} {wc' : Core} {bs : Bytes} {w' : Written} (h : Emits transferStart (s, wc) bs 0 (s', wc')) (hi : WInv wst wc' w') (hok : WOk wst w')
    (hb : w'.bytes wst = w.bytes wst ++ bs) : Moves wst (transferRest n d) s wc w (transferFinish d n) s' w' := by
  refine ⟨bs, wc', hi, hok, hb, fun bs' t ht => ?_⟩
  refine h.bind ?_
  rw [finish_zero]
  exact ht

mutual
theorem rest_value (v : Cst) : ∀ {c : Ctx} {l : Lead} {pos : Pos} {r : Bytes} {n d : Nat} {wc : Core} {w : Written}, c.Slot l → v.Ok (cfgOf st) → Fits st c v.depth → (v.isBare = true → SepOk r) →
    (v.Nums fun bs => ¬ Restricted st bs) → WInv wst wc w → WOk wst w → w.CanAdd wst →
    Moves wst (transferRest (n + costV v) d) (stp st c pos (some (startOf v)) (tailOf v ++ r)) wc w (transferFinish d n) (stp st (c.add l v) (pos.over v.bytes) none r) (w.add v.value) := by
  intro c l pos r n d wc w hs hv hf hb hnum hw hok hc
  have hadd : (w.add v.value).str = none := by rw [add_str]; exact hc.1
  have scalar : ∀ {α : Type} {m : R AbsSrc α} {a : α} {op : WOp} {f : α → W Unit}, costV v = 0 → Denotes op v.value → OpOk op → wop op = (f a >>= fun _ => pure .unit) →
      m.run (stp st c pos (some (startOf v)) (tailOf v ++ r)) = .ok a (stp st (c.add l v) (pos.over v.bytes) none r) →
      (∀ {bs x}, Emits (onReader m >>= fun a => onWriter (f a) >>= fun _ => pure 0) (stp st c pos (some (startOf v)) (tailOf v ++ r), wc) bs 0 x →
        Emits transferStart (stp st c pos (some (startOf v)) (tailOf v ++ r), wc) bs 0 x) →
      Moves wst (transferRest (n + costV v) d) (stp st c pos (some (startOf v)) (tailOf v ++ r)) wc w (transferFinish d n) (stp st (c.add l v) (pos.over v.bytes) none r) (w.add v.value) := by
    intro α m a op f h0 hd hop hm hrun hstart
    have hstep : Step wst w op (w.add v.value) := .value hc hd
    obtain ⟨bs, wc', h1, h2, h3⟩ := step_emits hw hok hop hstep hadd (denotes_not_rejected hd) hm
    rw [h0]
    exact rest_scalar (hstart ((onReader_emits hrun wc).seq ((onWriter_emits h1 _).last emits_pure))) h3 (hok.step hstep) h2
  have hp := peek_run (st := st) (v := v) (pos := pos) (r := tailOf v ++ r) hs
  cases v with
  | null =>
    refine scalar (α := Unit) (m := nextNull) (f := fun _ => nullValue) rfl .null trivial rfl (Abs.nextNull_ok hs) ?_
    intro bs x h
    exact (onReader_emits hp wc).seq h
  | bool b =>
    refine scalar (α := Bool) (m := nextBool) (f := boolValue) rfl (.bool b) trivial rfl ?_ ?_
    · cases b
      · exact Abs.nextBool_ok (b := false) hs
      · exact Abs.nextBool_ok (b := true) hs
    intro bs x h
    refine (onReader_emits hp wc).seq ?_
    cases b <;> exact h
  | num bs => 
    have he : enc (asciiText bs) = bs := Abs.asciiText_enc (Abs.isNumber_plain hv)
    have hn : IsNumber (enc (asciiText bs)) := he.symm ▸ hv
    refine scalar (α := Text) (m := nextNumberAsStr) (f := fun t => numberValue (.transferred t)) rfl (.transferred _ hn) hn rfl (Abs.nextNumberAsStr_ok hs hv (hb rfl) hnum) ?_
    intro bs x h
    exact (onReader_emits hp wc).seq h
  | str x =>
    obtain ⟨bs, wc', h1, h2, h3⟩ := string_emits (st := st) (pos := pos) (r := r) hs hv hw hc
    refine rest_scalar ((onReader_emits hp wc).seq (Emits.last (a := ()) ?_ emits_pure)) h3 (hok.add hc trivial) h2
    rw [show tailOf (.str x) ++ r = x.body ++ 0x22 :: r by simp [tailOf]]
    exact h1
  | arr is =>
    obtain ⟨tops, fs, str⟩ := w
    obtain rfl : str = none := hc.1
    have hstep : Step wst ⟨tops, fs, none⟩ .beginArray ⟨tops, .arr [] :: fs, none⟩ := .beginArray hc
    obtain ⟨bs, wc1, h1, h2, h3⟩ := step_emits (op := .beginArray) (m := Writer.beginArray) hw hok trivial hstep rfl nofun rfl
    have hr1 : Reader.beginArray.run (stp st c pos (some .arrayStart) (is.bytes ++ r)) = .ok () (stp st (.arr c l []) (pos.over [0x5B]) none (is.bytes ++ r)) := Abs.beginArray_ok hs hf.tooDeep
    refine Moves.trans (m' := transferLoop (n + costI is) (d + 1)) (s' := stp st (.arr c l []) (pos.over [0x5B]) none (is.bytes ++ r)) (w' := ⟨tops, .arr [] :: fs, none⟩)
      ⟨bs, wc1, h3, hok.step hstep, h2, fun bs' t ht => ?_⟩ fun wc' hw' hok' => ?_
    · refine Emits.bind (a := 1) ((onReader_emits hp wc).seq ((onReader_emits hr1 wc).seq ((onWriter_emits h1 _).last emits_pure))) ?_
      rw [if_neg (by simp)]
      exact ht
    · refine (loop_items is (V := .arr is) (done := []) hs hv (hf.mono (by simp [Ctx.stack, Cst.depth]; omega)) hnum hw' hok').cast ?_ rfl
      rw [Abs.Pos.over_over _ (Abs.plain_cons (by decide) Abs.plain_nil : Abs.Plain [0x5B]).noBreak.left]
      rfl
  | obj ms =>
    obtain ⟨tops, fs, str⟩ := w
    obtain rfl : str = none := hc.1
    have hstep : Step wst ⟨tops, fs, none⟩ .beginObject ⟨tops, .obj [] none :: fs, none⟩ := .beginObject hc
    obtain ⟨bs, wc1, h1, h2, h3⟩ := step_emits (op := .beginObject) (m := Writer.beginObject) hw hok trivial hstep rfl nofun rfl
    have hr1 : Reader.beginObject.run (stp st c pos (some .objectStart) (ms.bytes ++ r)) = .ok () (stp st (.obj c l []) (pos.over [0x7B]) none (ms.bytes ++ r)) := Abs.beginObject_ok hs hf.tooDeep
    refine Moves.trans (m' := transferLoop (n + costM ms) (d + 1)) (s' := stp st (.obj c l []) (pos.over [0x7B]) none (ms.bytes ++ r)) (w' := ⟨tops, .obj [] none :: fs, none⟩)
      ⟨bs, wc1, h3, hok.step hstep, h2, fun bs' t ht => ?_⟩ fun wc' hw' hok' => ?_
    · refine Emits.bind (a := 1) ((onReader_emits hp wc).seq ((onReader_emits hr1 wc).seq ((onWriter_emits h1 _).last emits_pure))) ?_
      rw [if_neg (by simp)]
      exact ht
    · refine (loop_members ms (V := .obj ms) (done := []) hs hv (hf.mono (by simp [Ctx.stack, Cst.depth]; omega)) hnum hw' hok').cast ?_ rfl
      rw [Abs.Pos.over_over _ (Abs.plain_cons (by decide) Abs.plain_nil : Abs.Plain [0x7B]).noBreak.left]
      rfl
theorem loop_items (is : Items) : ∀ {up : Ctx} {lu : Lead} {done : List (Sep × Cst)} {pos : Pos} {r : Bytes} {n d : Nat} {V : Cst} {wc : Core} {tops vs : List JVal} {fs : List WSpec.Frame},
    up.Slot lu → is.Ok (cfgOf st) done.isEmpty → Fits st (.arr up lu done) is.depth → (is.Nums fun bs => ¬ Restricted st bs) → WInv wst wc ⟨tops, .arr vs :: fs, none⟩ → WOk wst ⟨tops, .arr vs :: fs, none⟩ →
    Moves wst (transferLoop (n + costI is) (d + 1)) (stp st (.arr up lu done) pos none (is.bytes ++ r)) wc ⟨tops, .arr vs :: fs, none⟩ (transferFinish d n)
      (stp st (up.add lu V) (pos.over is.bytes) none r) (Written.add ⟨tops, fs, none⟩ (.arr (vs ++ is.values))) := by
  intro up lu done pos r n d V wc tops vs fs hs hok hf hnum hw hwo
  cases is with
  | nil close =>
    have hn := Abs.hasNext_arr_c (st := st) (up := up) (lu := lu) (done := done) (pos := pos) (p := .arrayEnd) (l := .sep close) (r := r) (.inl ⟨rfl, hok⟩) trivial
    rw [show (Items.nil close).bytes ++ r = (Lead.sep close).bytes ++ (Abs.tokBytes .arrayEnd ++ r) by simp [Items.bytes, Lead.bytes, Abs.tokBytes]]
    have hstep : Step wst ⟨tops, .arr vs :: fs, none⟩ .endArray (Written.add ⟨tops, fs, none⟩ (.arr vs)) := .endArray
    obtain ⟨bs, wc1, h1, h2, h3⟩ := step_emits (op := .endArray) (m := Writer.endArray) hw hwo trivial hstep (by rw [add_str]) nofun rfl
    have hr1 := Abs.endArray_ok (st := st) (d := done) (pos := pos.over close.bytes) (r := r) (v := V) hs
    rw [show n + costI (.nil close) = n + 1 from rfl, loop_eq, Items.values, List.append_nil]
    refine ⟨bs, wc1, h3, hwo.step hstep, h2, fun bs' t ht => ?_⟩
    refine (onReader_emits (end_run hn) wc).seq (Emits.bind (a := ()) (s' := (stp st (up.add lu V) (pos.over (Items.nil close).bytes) none r, wc1)) ?_ ht)
    refine emits_get.seq ?_
    dsimp only
    rw [Abs.isInArray_stp]
    refine (onReader_emits (a := ()) ?_ wc).seq (onWriter_emits h1 _)
    rw [show pos.over (Items.nil close).bytes = (pos.over close.bytes).over [0x5D] by rw [Abs.Pos.over_over _ (Abs.noSplit_head (by simp))]; rfl]
    exact hr1
  | cons sp v rest =>
    obtain ⟨h1, h2, h3⟩ := hok
    have hb : v.isBare = true → SepOk (rest.bytes ++ r) := fun _ => Abs.items_sepOk h3
    have hn := Abs.hasNext_arr_c (st := st) (up := up) (lu := lu) (done := done) (pos := pos) (p := startOf v) (l := .sep sp) (r := tailOf v ++ (rest.bytes ++ r)) (.inr ⟨Abs.isValue_start v, h1⟩) (Abs.follow_start h2 hb)
    rw [Abs.isEnd_start] at hn
    have he : (Items.cons sp v rest).bytes ++ r = (Lead.sep sp).bytes ++ (Abs.tokBytes (startOf v) ++ (tailOf v ++ (rest.bytes ++ r))) := by
      simp only [Items.bytes, Lead.bytes, Abs.start_tail, List.append_assoc]
    rw [he, show n + costI (.cons sp v rest) = n + costI rest + costV v + 1 by simp only [costI]; omega, loop_eq]
    refine Moves.reader (end_run hn) ?_
    have hv := rest_value v (n := n + costI rest) (d := d + 1) (c := .arr up lu done) (l := .sep sp) (pos := pos.over (Lead.sep sp).bytes) trivial h2 (hf.mono (by simp [Items.depth]; omega)) hb hnum.1 hw hwo canAdd_arr
    have hrest := Moves.trans hv fun wc' hw' hok' => loop_items rest (V := V) (n := n) (d := d) (r := r) hs (by rw [show (done ++ [(sp, v)]).isEmpty = false by simp]; exact h3)
      (hf.mono (by simp [Items.depth, Ctx.stack]; omega)) hnum.2 hw' hok'
    obtain ⟨bs, wc', g1, g2, g3, g4⟩ := hrest.cast (s'' := stp st (up.add lu V) (pos.over (Items.cons sp v rest).bytes) none r)
      (by
        rw [Abs.over_value h2, Abs.Pos.over_over _ (Abs.noCr_append (Abs.Cst.noCr h2).2 (Abs.Cst.noCr h2).1).noSplit]
        simp only [Items.bytes, Lead.bytes, List.append_assoc])
      (w'' := Written.add ⟨tops, fs, none⟩ (.arr (vs ++ (Items.cons sp v rest).values))) (by simp [Items.values])
    exact ⟨bs, wc', g1, g2, g3, fun bs' t ht => (name_none rfl).seq (g4 bs' t ht)⟩
theorem loop_members (ms : Members) : ∀ {up : Ctx} {lu : Lead} {done : List Mem} {pos : Pos} {r : Bytes} {n d : Nat} {V : Cst} {wc : Core} {tops : List JVal} {xs : List (Text × JVal)} {fs : List WSpec.Frame},
    up.Slot lu → ms.Ok (cfgOf st) done.isEmpty → Fits st (.obj up lu done) ms.depth → (ms.Nums fun bs => ¬ Restricted st bs) → WInv wst wc ⟨tops, .obj xs none :: fs, none⟩ → WOk wst ⟨tops, .obj xs none :: fs, none⟩ →
    Moves wst (transferLoop (n + costM ms) (d + 1)) (stp st (.obj up lu done) pos none (ms.bytes ++ r)) wc ⟨tops, .obj xs none :: fs, none⟩ (transferFinish d n)
      (stp st (up.add lu V) (pos.over ms.bytes) none r) (Written.add ⟨tops, fs, none⟩ (.obj (xs ++ ms.values))) := by
  intro up lu done pos r n d V wc tops xs fs hs hok hf hnum hw hwo
  cases ms with
  | nil close =>
    have hn := Abs.hasNext_obj_c (st := st) (up := up) (lu := lu) (done := done) (pos := pos) (p := .objectEnd) (l := .sep close) (r := r) (.inl ⟨rfl, hok⟩) trivial
    rw [show (Members.nil close).bytes ++ r = (Lead.sep close).bytes ++ (Abs.tokBytes .objectEnd ++ r) by simp [Members.bytes, Lead.bytes, Abs.tokBytes]]
    have hstep : Step wst ⟨tops, .obj xs none :: fs, none⟩ .endObject (Written.add ⟨tops, fs, none⟩ (.obj xs)) := .endObject
    obtain ⟨bs, wc1, h1, h2, h3⟩ := step_emits (op := .endObject) (m := Writer.endObject) hw hwo trivial hstep (by rw [add_str]) nofun rfl
    have hr1 := Abs.endObject_ok (st := st) (d := done) (pos := pos.over close.bytes) (r := r) (v := V) hs
    rw [show n + costM (.nil close) = n + 1 from rfl, loop_eq, Members.values, List.append_nil]
    refine ⟨bs, wc1, h3, hwo.step hstep, h2, fun bs' t ht => ?_⟩
    refine (onReader_emits (end_run hn) wc).seq (Emits.bind (a := ()) (s' := (stp st (up.add lu V) (pos.over (Members.nil close).bytes) none r, wc1)) ?_ ht)
    refine emits_get.seq ?_
    dsimp only
    rw [Abs.isInArray_stp]
    refine (onReader_emits (a := ()) ?_ wc).seq (onWriter_emits h1 _)
    rw [show pos.over (Members.nil close).bytes = (pos.over close.bytes).over [0x7D] by rw [Abs.Pos.over_over _ (Abs.noSplit_head (by simp))]; rfl]
    exact hr1
  | cons sp x w1 w2 v rest =>
    obtain ⟨h1, hx, hw1, hw2, h2, h3⟩ := hok
    have hb : v.isBare = true → SepOk (rest.bytes ++ r) := fun _ => Abs.members_sepOk h3
    have hn := Abs.hasNext_obj_c (st := st) (up := up) (lu := lu) (done := done) (pos := pos) (p := .nameStart) (l := .sep sp)
      (r := x.body ++ 0x22 :: (w1.bytes ++ (0x3A :: (w2.bytes ++ (v.bytes ++ (rest.bytes ++ r)))))) (.inr ⟨rfl, h1⟩) trivial
    have he : (Members.cons sp x w1 w2 v rest).bytes ++ r = (Lead.sep sp).bytes ++ (Abs.tokBytes .nameStart ++ (x.body ++ 0x22 :: (w1.bytes ++ (0x3A :: (w2.bytes ++ (v.bytes ++ (rest.bytes ++ r))))))) := by
      simp [Members.bytes, Lead.bytes, Str.bytes, Abs.tokBytes]
    rw [he, show n + costM (.cons sp x w1 w2 v rest) = n + costM rest + costV v + 1 by simp only [costM]; omega, loop_eq]
    refine Moves.reader (end_run hn) ?_
    have hstep : Step wst ⟨tops, .obj xs none :: fs, none⟩ (.name x.text) ⟨tops, .obj xs (some x.text) :: fs, none⟩ := .name
    obtain ⟨bs, wc1, e1, e2, e3⟩ := step_emits (op := .name x.text) (m := Writer.name x.text) hw hwo trivial hstep rfl nofun rfl
    have hr1 := Abs.nextName_ok (st := st) (up := up) (l := lu) (d := done) (pos := pos.over sp.bytes) (sp := sp) (r := w1.bytes ++ (0x3A :: (w2.bytes ++ (v.bytes ++ (rest.bytes ++ r))))) hx
    have hp := Abs.peekTo_value (st := st) (c := .val up lu done sp x) (l := .colon w1 w2) (pos := (pos.over sp.bytes).over x.bytes) (v := v) (r := rest.bytes ++ r) ⟨Abs.isValue_start v, hw1, hw2⟩ h2 hb
    rw [show (Lead.colon w1 w2).bytes ++ (v.bytes ++ (rest.bytes ++ r)) = w1.bytes ++ (0x3A :: (w2.bytes ++ (v.bytes ++ (rest.bytes ++ r)))) by simp [Lead.bytes]] at hp
    refine Moves.trans (m' := transferRest (n + costM rest + costV v) (d + 1)) (w' := ⟨tops, .obj xs (some x.text) :: fs, none⟩)
      (s' := stp st (.val up lu done sp x) (((pos.over sp.bytes).over x.bytes).over (Lead.colon w1 w2).bytes) (some (startOf v)) (tailOf v ++ (rest.bytes ++ r)))
      ⟨bs, wc1, e3, hwo.step hstep, e2, fun bs' t ht => ?_⟩ fun wc' hw' hok' => ?_
    · refine Emits.bind (a := ()) (emits_get.seq ((onReader_emits hr1 wc).seq (onWriter_emits e1 _))) ?_
      exact rest_peek hp rfl ht
    · have hv := rest_value v (n := n + costM rest) (d := d + 1) (c := .val up lu done sp x) (l := .colon w1 w2) (pos := ((pos.over sp.bytes).over x.bytes).over (Lead.colon w1 w2).bytes) (r := rest.bytes ++ r) trivial h2 (hf.mono (by simp [Members.depth, Ctx.stack]; omega)) hb hnum.1 hw' hok' ⟨rfl, trivial⟩
      refine (Moves.trans hv fun wc' hw' hok' => loop_members rest (V := V) (n := n) (d := d) (r := r) hs (by rw [show (done ++ [(⟨sp, x, w1, w2, v⟩ : Mem)]).isEmpty = false by simp]; exact h3)
        (hf.mono (by simp [Members.depth, Ctx.stack]; omega)) hnum.2 hw' hok').cast ?_ (by simp [Members.values])
      have hx0 : x.bytes.head? ≠ some 0x0A := by simp [Str.bytes]
      rw [Abs.over_value h2, Abs.Pos.over_over pos (Abs.noSplit_head hx0), Abs.Pos.over_over _ (Abs.noCr_append (by simp [Str.bytes]) (Abs.str_noCr x)).noSplit, Abs.Pos.over_over _]
      · simp [Members.bytes, Lead.bytes]
      · refine (Abs.noCr_append ?_ (Abs.noCr_append (Abs.Cst.noCr h2).2 (Abs.Cst.noCr h2).1)).noSplit
        simp [(Abs.Cst.noCr h2).2]
end

end Verif.Transfer

import Verif.Proofs.SimpleWriter.Run
/-!
# What is written by the Simple writer API
-/

namespace Verif.SimpleWriter
open Writer Json SimpleSpec
open WSpec (Written Step Rejected Denotes strLit lead SvWrites svData)
open Transfer (add_str)
open WSpec (body_append)

variable {wst : WSettings} {c : Core} {w : Written} {α : Type}

/-! ## Without space for a value -/

/-- operations which start or write a value -/
def IsVal : WOp → Prop
  | .beginArray | .beginObject | .nullValue | .boolValue _ | .stringValue _ | .numberValue _ | .fpNumberValue _ | .numberValueFromString _ => True
  | _ => False

theorem step_canAdd {op : WOp} {w' : Written} (hv : IsVal op) (hr : ¬ Rejected op) (hs : Step wst w op w') : w.CanAdd wst := by
  cases hs with
  | value h _ => exact h
  | rejected h => exact absurd h hr
  | unfinished h _ => exact h
  | beginArray h => exact h
  | beginObject h => exact h
  | endArray => exact hv.elim
  | endObject => exact hv.elim
  | name => exact hv.elim
  | finish => exact hv.elim

/-- fails or panics -/
def NoSpace {ε : Type} (m : T ε Core α) (c : Core) : Prop := (∃ bs e c', Errs m c bs e c') ∨ ∃ bs p, Panics m c bs p

theorem NoSpace.bind {ε β : Type} {m : T ε Core α} {f : α → T ε Core β} (h : NoSpace m c) : NoSpace (m >>= f) c := by
  rcases h with ⟨bs, e, c', h⟩ | ⟨bs, p, h⟩
  · exact .inl ⟨bs, e, c', h.bind⟩
  · exact .inr ⟨bs, p, h.bind⟩

theorem noSpace_op {op : WOp} {m : W Unit} (hi : WInv wst c w) (hok : WOk wst w) (hop : OpOk op) (hv : IsVal op) (hc : ¬ w.CanAdd wst) (hm : wop op = (m >>= fun _ => pure .unit)) :
    NoSpace (Ser.onWriter m) c := by
  cases wop_outcome hi hok op hop with
  | done w' out bs c' h1 h2 h3 h4 h5 h6 => exact absurd (step_canAdd hv h5 h1) hc
  | rejected h1 h2 =>
    rw [hm] at h2
    exact .inl ⟨_, _, _, Ser.onWriter_errs (inv_errs h2)⟩
  | panic u h1 h2 =>
    rw [hm] at h1
    have h1 := inv_panics h1
    refine .inr ⟨[], .usage u, ?_⟩
    unfold Panics at *
    show ((m.run c).bind _).ideal = _
    rw [ideal_bind, h1]

theorem serialize_noSpace (hi : WInv wst c w) (hok : WOk wst w) (hc : ¬ w.CanAdd wst) : (v : Ser.SVal) → SerSpec.Ok v → NoSpace (Ser.serialize v) c
  | .bool b, _ => noSpace_op (op := .boolValue b) hi hok trivial trivial hc rfl
  | .int t i, _ => noSpace_op (op := .numberValue (.int t i)) hi hok trivial trivial hc rfl
  | .float f, h => noSpace_op (op := .fpNumberValue f) hi hok h trivial hc rfl
  | .char ch, _ => noSpace_op (op := .stringValue [ch]) hi hok trivial trivial hc rfl
  | .str t, _ => noSpace_op (op := .stringValue t) hi hok trivial trivial hc rfl
  | .bytes bs, _ => by rw [Ser.serialize]; exact (noSpace_op (op := .beginArray) hi hok trivial trivial hc rfl).bind
  | .none, _ => noSpace_op (op := .nullValue) hi hok trivial trivial hc rfl
  | .some v, h => by rw [Ser.serialize]; exact serialize_noSpace hi hok hc v h
  | .unit, _ => noSpace_op (op := .nullValue) hi hok trivial trivial hc rfl
  | .unitStruct, _ => noSpace_op (op := .nullValue) hi hok trivial trivial hc rfl
  | .unitVariant t, _ => noSpace_op (op := .stringValue t) hi hok trivial trivial hc rfl
  | .newtypeStruct v, h => by rw [Ser.serialize]; exact serialize_noSpace hi hok hc v h
  | .newtypeVariant _ v, _ => by rw [Ser.serialize]; exact (noSpace_op (op := .beginObject) hi hok trivial trivial hc rfl).bind
  | .seq len vs, _ => by rw [Ser.serialize]; exact (noSpace_op (op := .beginArray) hi hok trivial trivial hc rfl).bind
  | .tuple len vs, _ => by rw [Ser.serialize]; exact (noSpace_op (op := .beginArray) hi hok trivial trivial hc rfl).bind
  | .tupleStruct len vs, _ => by rw [Ser.serialize]; exact (noSpace_op (op := .beginArray) hi hok trivial trivial hc rfl).bind
  | .tupleVariant _ len vs, _ => by rw [Ser.serialize]; exact (noSpace_op (op := .beginObject) hi hok trivial trivial hc rfl).bind
  | .map len ops, _ => by rw [Ser.serialize]; exact (noSpace_op (op := .beginObject) hi hok trivial trivial hc rfl).bind
  | .struct len fs, _ => by rw [Ser.serialize]; exact (noSpace_op (op := .beginObject) hi hok trivial trivial hc rfl).bind
  | .structVariant _ len fs, _ => by rw [Ser.serialize]; exact (noSpace_op (op := .beginObject) hi hok trivial trivial hc rfl).bind
  | .custom msg, _ => .inl ⟨_, _, _, errs_fail⟩

/-! ## Serialized values -/

theorem serialize_call (hi : WInv wst c w) (hok : WOk wst w) (v : Ser.SVal) (hv : SerSpec.Ok v) :
    Ends wst (call (.serializeValue v)) c w (fun r w' => r = .ok () ∧ w.CanAdd wst ∧ ∃ j, SerSpec.json v = .ok j ∧ w' = w.add j) (¬ w.CanAdd wst) := by
  by_cases hc : w.CanAdd wst
  · have h := Ser.serialize_ends v hv hc
    generalize hj : SerSpec.json v = r at h
    cases r with
    | ok j =>
      obtain ⟨bs, c', h1, h2, h3, h4⟩ := h c hi hok
      exact .done bs _ c' _ (call_emits (by exact (onSerializer_emits h1).last emits_pure)) h2 h3 h4 ⟨rfl, hc, j, rfl, rfl⟩
    | error e =>
      obtain ⟨bs, c', _, h1, _⟩ := h c hi hok
      exact .failed _ _ _ _ (call_errs (by exact (onSerializer_errs h1).bind))
  · rcases serialize_noSpace hi hok hc v hv with ⟨bs, e, c', h⟩ | ⟨bs, p, h⟩
    · exact .failed _ _ _ _ (call_errs (by exact (onSerializer_errs h).bind))
    · exact .panics _ _ hc (call_panics (by exact (onSerializer_panics h).bind))

/-! ## Strings -/

theorem written_eq (o : SvOp) : written o = svOk o := by cases o <;> rfl

theorem str_exec : (f : StrC) → ∀ {c : Core} {pend : Bytes}, SvInv c pend →
    (∃ bs r e c', XE (str f) none c bs r (some e) c') ∨
    ∃ t pend' c' r, XE (str f) none c (strLit c.settings t).body r none c' ∧ Same c c' ∧ SvInv c' pend' ∧
      ((r = .ok () ∧ ∃ ops, StrWrites f ops ∧ pend ++ svData ops = enc t ++ pend' ∧ StrAligned pend ops) ∨ ((∃ e, r = .error e) ∧ ¬ HonestStr f))
  | .ret (.ok ()), c, pend, h => by
    refine .inr ⟨[], pend, c, .ok (), XE.stop rfl, rfl, h, .inl ⟨rfl, [], .done, by simp [svData, enc], ?_⟩⟩
    intro pre u post h; cases pre <;> cases h
  | .ret (.error e), c, pend, h => .inr ⟨[], pend, c, .error e, XE.stop rfl, rfl, h, .inr ⟨⟨e, rfl⟩, by rw [HonestStr]; nofun⟩⟩
  | .op o k, c, pend, h => by
    unfold str
    have hd : ∀ ops', svData (o :: ops') = WSpec.SvOp.data o ++ svData ops' := fun _ => rfl
    rcases svOp_emits h o with ⟨t, p', c', h1, h2, h3, h4, h5⟩ | ⟨t, e, c', h1, h2, h3, h4, h5, h6⟩
    · have hx := (useDelegate_emits (w := .sv o) (by exact onWriter_emits h1)).attempt
      rcases str_exec (k (.ok (svOk o))) h4 with ⟨bs, r, e, c2, g⟩ | ⟨t2, p2, c2, r, g1, g2, g3, g4⟩
      · exact .inl ⟨_, r, e, c2, hx.bind g⟩
      · rw [h3.settings] at g1
        refine .inr ⟨t ++ t2, p2, c2, r, ?_, h3.trans g2, g3, ?_⟩
        · rw [body_append]
          exact hx.bind g1
        · rcases g4 with ⟨rfl, ops, w1, w2, w3⟩ | ⟨he, hh⟩
          · refine .inl ⟨rfl, o :: ops, .op (by rw [written_eq]; exact w1), ?_, ?_⟩
            · rw [hd, ← List.append_assoc, h2, List.append_assoc, w2, Verif.enc_append, List.append_assoc]
            · intro pre u post he
              cases pre with
              | nil =>
                injection he with he _
                rw [h5 u he]
                exact ⟨[], rfl⟩
              | cons o' pre =>
                injection he with he1 he2
                obtain ⟨v, hv⟩ := w3 pre u post he2
                refine ⟨t ++ v, ?_⟩
                rw [← he1, hd, ← List.append_assoc, h2, List.append_assoc, hv, Verif.enc_append]
          · exact .inr ⟨he, fun hh' => hh (by rw [HonestStr] at hh'; exact hh' _)⟩
    · have hx := (useDelegate_errs (w := .sv o) (by exact onWriter_errs h1)).attempt
      obtain ⟨r, hr⟩ := (stick_str (k (.error (.writer e)))).stops (.writer e)
      exact .inl ⟨_, r, _, c', hx.bind (XE.stop hr)⟩

theorem finish_run (s : Option SErr) (hs : s = none) : (do
    match ← CT.get with
    | some e => CT.fail (.previous e)
    | none => call .finishValue : X Unit).run s = (call .finishValue).run s := by subst hs; rfl

theorem string_ends (f : StrC) (hi : WInv wst c w) (hok : WOk wst w) :
    Ends wst (writeStringWithWriter f) c w (fun r w' => w.CanAdd wst ∧ ((r = .ok () ∧ ∃ ops t, StrWrites f ops ∧ SvWrites ops t ∧ w' = w.add (.str t)) ∨ (¬ HonestStr f ∧ w'.str ≠ none)))
      (¬ w.CanAdd wst) := by
  unfold writeStringWithWriter
  by_cases hc : w.CanAdd wst
  · obtain ⟨c', h1, h2⟩ := stringValueWriter_emits hi hc
    have hx := call_emits (w := .stringValueWriter) (by exact unit_emits h1)
    have hsett : ({ c' with stringWriterActive := true, sv := .new } : Core).settings = wst := h2.settings
    rcases str_exec f (SvInv.new c') with ⟨bs, r, e, c2, g⟩ | ⟨t, p2, c2, r, g1, g2, g3, g4⟩
    · cases r with
      | ok a => exact .failed _ _ e c2 (hx.bind (g.bind (XE.stop (r := .error (.previous e)) rfl)))
      | error e' => exact .failed _ _ e c2 (hx.bind g.bind_err)
    · rw [show strLit ({ c' with stringWriterActive := true, sv := .new } : Core).settings t = strLit wst t by rw [hsett]] at g1
      rcases g4 with ⟨rfl, ops, w1, w2, w3⟩ | ⟨⟨e, rfl⟩, hh⟩
      · by_cases hp : p2 = []
        · subst hp
          rw [List.nil_append, List.append_nil] at w2
          have hy := call_emits (w := .finishValue) (by exact unit_emits (svFinish_emits g3))
          have hz : XE (writeStringWithWriter f) none c ((lead wst w.tops w.frames ++ [0x22]) ++ ((strLit wst t).body ++ [0x22])) (.ok ()) none
              { c2 with stringWriterActive := false, sv := .new } := by
            unfold writeStringWithWriter
            exact hx.bind (g1.bind (by exact hy))
          refine .done _ _ _ (w.add (.str t)) hz ?_ (winv_finished h2 hc.1 g2) (hok.add hc ?_)
            ⟨hc, .inl ⟨rfl, ops, t, w1, ⟨w2, fun pre u post h => by simpa using w3 pre u post h⟩, rfl⟩⟩
          · rw [WSpec.add_bytes hc]
            simp [WSpec.cst, Str.bytes, Cst.bytes]
          · trivial
        · have hy := call_errs (w := .finishValue) (by exact unit_errs (svFinish_incomplete g3 hp))
          exact .failed _ _ _ _ (hx.bind (g1.bind (by exact hy)))
      · refine .done _ _ c2 { w with str := some t } (hx.bind g1.bind_err) ?_ (winv_unfinished h2 g2) ⟨hok.tops, hok.single, hok.frames, fun _ => ⟨rfl, hc.2⟩⟩ ⟨hc, .inr ⟨hh, nofun⟩⟩
        simp [Written.bytes, hc.1]
  · obtain ⟨u, hu⟩ := beforeValue_panics hi hc
    have h : Panics stringValueWriter c [] (.usage u) := by unfold stringValueWriter; exact hu.bind
    exact .panics _ _ hc (XP.bind (call_panics (w := .stringValueWriter) (by exact unit_panics h)))

end Verif.SimpleWriter

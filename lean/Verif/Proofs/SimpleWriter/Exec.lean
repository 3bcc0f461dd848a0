import Verif.Proofs.SimpleWriter.Closures
/-!
# The Simple writer API with a new writer
-/

namespace Verif.SimpleWriter
open Writer Json SimpleSpec
open WSpec (Written Step Rejected Denotes Frame SvWrites svData cst lead strLit body_append)
open Transfer (add_str step_emits)

variable {wst : WSettings} {α β : Type} {w w' w'' : Written}

/-! ## Successful operations -/

/-- `m` returns `r` and writes what leads from `w` to `w'` -/
def Runs (wst : WSettings) (m : X α) (r : Except SErr α) (w w' : Written) : Prop := ∀ c, WInv wst c w → WOk wst w →
  ∃ bs c', XE m none c bs r none c' ∧ w'.bytes wst = w.bytes wst ++ bs ∧ WInv wst c' w' ∧ WOk wst w'

theorem Runs.bind {m : X α} {f : α → X β} {a : α} {r : Except SErr β} (h : Runs wst m (.ok a) w w') (hf : Runs wst (f a) r w' w'') : Runs wst (m >>= f) r w w'' := by
  intro c hi hok
  obtain ⟨b1, c1, h1, h2, h3, h4⟩ := h c hi hok
  obtain ⟨b2, c2, g1, g2, g3, g4⟩ := hf c1 h3 h4
  exact ⟨_, c2, h1.bind g1, by rw [g2, h2, List.append_assoc], g3, g4⟩

theorem Runs.attempt {m : X α} {r : Except SErr α} (h : Runs wst m r w w') : Runs wst (CT.attempt m) (.ok r) w w' := by
  intro c hi hok
  obtain ⟨b1, c1, h1, h2, h3, h4⟩ := h c hi hok
  exact ⟨_, c1, h1.attempt, h2, h3, h4⟩

theorem runs_ofExcept (r : Except SErr α) : Runs wst (CT.ofExcept r : X α) r w w := fun c hi hok =>
  ⟨[], c, XE.stop (by cases r <;> rfl), (List.append_nil _).symm, hi, hok⟩

theorem runs_pure (a : α) : Runs wst (pure a : X α) (.ok a) w w := fun c hi hok => ⟨[], c, XE.stop rfl, (List.append_nil _).symm, hi, hok⟩

theorem Runs.fail {m : X α} {f : α → X β} {e : SErr} (h : Runs wst m (.error e) w w') : Runs wst (m >>= f) (.error e) w w' := by
  intro c hi hok
  obtain ⟨b1, c1, h1, h2, h3, h4⟩ := h c hi hok
  exact ⟨_, c1, h1.bind_err, h2, h3, h4⟩

theorem runs_call {op : WOp} {m : W Unit} {wc : WCall} (hop : OpOk op) (hs : Step wst w op w') (hw : w'.str = none) (hr : ¬ Rejected op) (hp : perform wc = unit m)
    (hm : wop op = (m >>= fun _ => pure .unit)) : Runs wst (call wc) (.ok ()) w w' := by
  intro c hi hok
  obtain ⟨bs, c', h1, h2, h3⟩ := step_emits hi hok hop hs hw hr hm
  exact ⟨bs, c', call_emits (by rw [hp]; exact unit_emits h1), h2, h3, hok.step hs⟩

theorem runs_scalar {op : WOp} {m : W Unit} {wc : WCall} {v : JVal} (hc : w.CanAdd wst) (hd : Denotes op v) (hop : OpOk op) (hr : ¬ Rejected op) (hp : perform wc = unit m)
    (hm : wop op = (m >>= fun _ => pure .unit)) : Runs wst (call wc) (.ok ()) w (w.add v) :=
  runs_call hop (.value hc hd) (by rw [add_str]; exact hc.1) hr hp hm

theorem str_runs {f : StrC} {ops : List SvOp} (h : StrWrites f ops) : ∀ {c : Core} {pend : Bytes} {T : Text}, SvInv c pend → pend ++ svData ops = enc T → StrAligned pend ops →
    ∃ c', XE (str f) none c (strLit c.settings T).body (.ok ()) none c' ∧ Same c c' ∧ SvInv c' [] := by
  induction h with
  | done =>
    intro c pend T h hT _
    rw [show svData [] = [] from rfl, List.append_nil] at hT
    have hp := pend_not_enc h hT
    subst hp
    have : T = [] := by
      cases T with
      | nil => rfl
      | cons ch T =>
        obtain ⟨b, r, e1, _⟩ := encChar_cases ch
        rw [Verif.enc_cons, e1] at hT
        cases hT
    subst this
    exact ⟨c, XE.stop rfl, rfl, h⟩
  | @op o k ops hw ih =>
    intro c pend T h hT ha
    have hd : ∀ ops', svData (o :: ops') = WSpec.SvOp.data o ++ svData ops' := fun _ => rfl
    unfold str
    rcases svOp_emits h o with ⟨t, p', c', h1, h2, h3, h4, h5⟩ | ⟨t, e, c', h1, h2, h3, h4, h5, h6⟩
    · have hx := (useDelegate_emits (w := .sv o) (by exact onWriter_emits h1)).attempt
      rw [hd, ← List.append_assoc, h2, List.append_assoc] at hT
      obtain ⟨T2, rfl, hT2⟩ := enc_split hT
      obtain ⟨c2, g1, g2, g3⟩ := ih h4 hT2 (by
        intro pre u post he
        obtain ⟨v, hv⟩ := ha (o :: pre) u post (by rw [he]; rfl)
        rw [hd, ← List.append_assoc, h2, List.append_assoc] at hv
        obtain ⟨T2, _, hT⟩ := enc_split hv
        exact ⟨T2, hT⟩)
      rw [h3.settings] at g1
      rw [written_eq] at g1
      refine ⟨c2, ?_, h3.trans g2, g3⟩
      rw [body_append]
      exact hx.bind g1
    · exfalso
      rcases h6 with h6 | ⟨u, rfl, hp⟩
      · exact h6 ⟨svData ops, T, by rw [← hT, hd, List.append_assoc]⟩
      · obtain ⟨v, hv⟩ := ha [] u ops rfl
        rw [show svData [] = [] from rfl, List.append_nil] at hv
        exact hp (pend_not_enc h hv)

theorem string_runs {f : StrC} {ops : List SvOp} {t : Text} (h : StrWrites f ops) (ht : SvWrites ops t) (hc : w.CanAdd wst) :
    Runs wst (writeStringWithWriter f) (.ok ()) w (w.add (.str t)) := by
  intro c hi hok
  obtain ⟨c', h1, h2⟩ := stringValueWriter_emits hi hc
  have hx := call_emits (w := .stringValueWriter) (by exact unit_emits h1)
  have hsett : ({ c' with stringWriterActive := true, sv := .new } : Core).settings = wst := h2.settings
  obtain ⟨c2, g1, g2, g3⟩ := str_runs h (SvInv.new c') (by rw [List.nil_append]; exact ht.1) (fun pre u post h => by simpa using ht.2 pre u post h)
  rw [show strLit ({ c' with stringWriterActive := true, sv := .new } : Core).settings t = strLit wst t by rw [hsett]] at g1
  have hy := call_emits (w := .finishValue) (by exact unit_emits (svFinish_emits g3))
  have hz : XE (writeStringWithWriter f) none c ((lead wst w.tops w.frames ++ [0x22]) ++ ((strLit wst t).body ++ [0x22])) (.ok ()) none
      { c2 with stringWriterActive := false, sv := .new } := by
    unfold writeStringWithWriter
    exact hx.bind (g1.bind (by exact hy))
  refine ⟨_, _, hz, ?_, winv_finished h2 hc.1 g2, hok.add hc trivial⟩
  rw [WSpec.add_bytes hc]
  simp [WSpec.cst, Str.bytes, Cst.bytes]

theorem eta_none (h : w.str = none) (j : JVal) : w.add j = Written.add ⟨w.tops, w.frames, none⟩ j := by
  rw [← h]

mutual
theorem value_runs : (o : ValOp) → Fine o → ∀ {j : JVal} {w : Written}, Writes o j → w.CanAdd wst → Runs wst (value o) (.ok ()) w (w.add j)
  | .null, _, _, _, .null, hc => runs_scalar (op := .nullValue) hc .null trivial nofun rfl rfl
  | .bool b, _, _, _, .bool _, hc => runs_scalar (op := .boolValue b) hc (.bool b) trivial nofun rfl rfl
  | .string t, _, _, _, .string _, hc => runs_scalar (op := .stringValue t) hc (.string t) trivial nofun rfl rfl
  | .number (.int ty i), _, _, _, .int h, hc => runs_scalar (op := .numberValue (.int ty i)) hc (.int ty i _ h) trivial nofun rfl rfl
  | .number (.transferred t), _, _, _, .transferred h, hc => runs_scalar (op := .numberValue (.transferred t)) hc (.transferred t h) h nofun rfl rfl
  | .fpNumber ⟨true, t⟩, hf, _, _, .fpNumber, hc => by
    have hf : IsNumber (enc t) := by rw [Fine] at hf; exact hf rfl
    exact runs_scalar (op := .fpNumberValue ⟨true, t⟩) hc (.float t hf) (fun _ => hf) nofun rfl rfl
  | .numberString t, _, _, _, .numberString h, hc => runs_scalar (op := .numberValueFromString t) hc (.number t h) trivial (by rintro ⟨⟩; contradiction) rfl rfl
  | .serialize v, hf, j, w, .serialize hj, hc => by
    intro c hi hok
    have h := Ser.serialize_ends (wst := wst) v (by rw [Fine] at hf; exact hf) hc
    rw [hj] at h
    obtain ⟨bs, c', h1, h2, h3, h4⟩ := h c hi hok
    unfold value
    exact ⟨bs, c', call_emits (by exact (onSerializer_emits h1).last emits_pure), h2, h3, h4⟩
  | .stringWithWriter f, _, _, _, .stringWithWriter h1 h2, hc => by unfold value; exact string_runs h1 h2 hc
  | .array f, hf, _, w, .array hw, hc => by
    unfold value
    refine (runs_call (op := .beginArray) trivial (.beginArray hc) hc.1 nofun rfl rfl).bind ?_
    rw [hc.1]
    refine (arr_runs f (by rw [Fine] at hf; exact hf) hw).bind ?_
    refine runs_call (op := .endArray) trivial ?_ (by rw [add_str]; exact hc.1) nofun rfl rfl
    rw [eta_none hc.1]
    exact .endArray
  | .object f, hf, _, w, .object hw, hc => by
    unfold value
    refine (runs_call (op := .beginObject) trivial (.beginObject hc) hc.1 nofun rfl rfl).bind ?_
    rw [hc.1]
    refine (obj_runs f (by rw [Fine] at hf; exact hf) hw).bind ?_
    refine runs_call (op := .endObject) trivial ?_ (by rw [add_str]; exact hc.1) nofun rfl rfl
    rw [eta_none hc.1]
    exact .endObject
theorem arr_runs : (f : ArrC) → FineArr f → ∀ {us : List JVal} {tops : List JVal} {vs : List JVal} {fs : List Frame}, ArrWrites f us →
    Runs wst (arr f) (.ok ()) ⟨tops, .arr vs :: fs, none⟩ ⟨tops, .arr (vs ++ us) :: fs, none⟩
  | .ret (.ok ()), _, _, _, _, _, .done => by unfold arr; rw [List.append_nil]; exact runs_ofExcept _
  | .value o k, hf, _, tops, vs, fs, .value (v := v) (vs := us) hw hu => by
    unfold arr
    rw [FineArr] at hf
    have h := (arr_runs (k (.ok ())) (hf.2 _) hu (tops := tops) (vs := vs ++ [v]) (fs := fs))
    rw [List.append_assoc] at h
    exact (value_runs o hf.1 (w := ⟨tops, .arr vs :: fs, none⟩) hw ⟨rfl, trivial⟩).attempt.bind h
theorem obj_runs : (f : ObjC) → FineObj f → ∀ {us : List (Text × JVal)} {tops : List JVal} {ms : List (Text × JVal)} {fs : List Frame}, ObjWrites f us →
    Runs wst (obj f) (.ok ()) ⟨tops, .obj ms none :: fs, none⟩ ⟨tops, .obj (ms ++ us) none :: fs, none⟩
  | .ret (.ok ()), _, _, _, _, _, .done => by unfold obj; rw [List.append_nil]; exact runs_ofExcept _
  | .member n f k, hf, _, tops, ms, fs, .member (v := v) (r := r) (ms := us) hw hu => by
    unfold obj
    rw [FineObj] at hf
    have h := obj_runs (k r) (hf.2 _) hu (tops := tops) (ms := ms ++ [(n, v)]) (fs := fs)
    rw [List.append_assoc] at h
    refine Runs.bind (a := r) (Runs.attempt ?_) h
    refine (runs_call (op := .name n) trivial .name rfl nofun rfl rfl).bind ?_
    exact mem_runs f hf.1 hw
  | .memberValue n o k, hf, _, tops, ms, fs, .memberValue (v := v) (ms := us) hw hu => by
    unfold obj
    rw [FineObj] at hf
    have h := obj_runs (k (.ok ())) (hf.2 _) hu (tops := tops) (ms := ms ++ [(n, v)]) (fs := fs)
    rw [List.append_assoc] at h
    refine Runs.bind (a := .ok ()) (Runs.attempt ?_) h
    refine (runs_call (op := .name n) trivial .name rfl nofun rfl rfl).bind ?_
    exact value_runs o hf.1 (w := ⟨tops, .obj ms (some n) :: fs, none⟩) hw ⟨rfl, trivial⟩
theorem mem_runs : (f : MemC) → FineMem f → ∀ {v : JVal} {r : Except SErr Unit} {tops : List JVal} {ms : List (Text × JVal)} {n : Text} {fs : List Frame}, MemWrites f v r →
    Runs wst (do
      let wroteValue ← mem f
      if !wroteValue then call .nullValue else pure ()) r ⟨tops, .obj ms (some n) :: fs, none⟩ ⟨tops, .obj (ms ++ [(n, v)]) none :: fs, none⟩
  | .ret (.ok ()), _, _, _, tops, ms, n, fs, .nothing => by
    refine Runs.bind (a := false) (w' := ⟨tops, .obj ms (some n) :: fs, none⟩) ?_ ?_
    · unfold mem; exact (runs_ofExcept (.ok ())).bind (runs_pure _)
    · exact runs_scalar (op := .nullValue) (w := ⟨tops, .obj ms (some n) :: fs, none⟩) ⟨rfl, trivial⟩ .null trivial nofun rfl rfl
  | .value o k, hf, v, _, tops, ms, n, fs, .value hw => by
    have hv := (value_runs o (by rw [FineMem] at hf; exact hf) (w := ⟨tops, .obj ms (some n) :: fs, none⟩) hw ⟨rfl, trivial⟩).attempt
    have hr := runs_ofExcept (wst := wst) (w := ⟨tops, .obj (ms ++ [(n, v)]) none :: fs, none⟩) (k (.ok ()))
    generalize hk : k (.ok ()) = r at hr
    cases r with
    | ok a =>
      refine Runs.bind (a := true) (w' := ⟨tops, .obj (ms ++ [(n, v)]) none :: fs, none⟩) ?_ (runs_pure _)
      unfold mem
      refine hv.bind ?_
      rw [hk]
      exact hr.bind (runs_pure _)
    | error e =>
      refine Runs.fail ?_
      unfold mem
      refine hv.bind ?_
      rw [hk]
      exact hr.fail
end

/-! ## IO errors -/

/-- After a failed call of `write_bytes` or `flush` there are no further calls, and an error is returned -/
def Calm {ε : Type} (m : T ε Core α) : Prop := ∀ c, (m.run c).Quiet (fun _ => True) fun r => ∃ e, r.1 = .error e

theorem calm_onWriter {m : W α} (h : ∀ c, (m.run c).Quiet (fun _ => True) fun r => ∃ e, r.1 = .error e) : Calm (onWriter m) := by
  intro c
  unfold onWriter
  dsimp only
  refine (h c).bind ?_ ?_
  · rintro ⟨_ | a, c'⟩ - <;> trivial
  · rintro ⟨_ | a, c'⟩ ⟨e, h1⟩
    · cases h1; exact ⟨_, rfl⟩
    · cases h1

theorem calm_bind {ε : Type} {m : T ε Core α} {b : β} (h : Calm m) : Calm (m >>= fun _ => pure b) := by
  intro c
  rw [T.run_bind]
  refine (h c).bind ?_ ?_
  · rintro ⟨_ | a, c'⟩ - <;> trivial
  · rintro ⟨_ | a, c'⟩ ⟨e, h1⟩
    · cases h1; exact ⟨_, rfl⟩
    · cases h1

theorem calm_unit {m : W Unit} (h : Writer.CalmE m) : Calm (unit m) :=
  calm_bind (calm_onWriter fun c => (h c).mono (fun _ h => h) fun r h => ⟨_, h.1.choose_spec.1⟩)

theorem calm_perform (w : WCall) : Calm (perform w) := by
  cases w with
  | beginObject => exact calm_unit calm_beginObject.weaken
  | endObject => exact calm_unit calm_endObject.weaken
  | beginArray => exact calm_unit calm_beginArray.weaken
  | endArray => exact calm_unit calm_endArray.weaken
  | name n => exact calm_unit calm_name.weaken
  | nullValue => exact calm_unit calm_nullValue.weaken
  | boolValue b => exact calm_unit calm_boolValue.weaken
  | stringValue t => exact calm_unit calm_stringValue.weaken
  | stringValueWriter => exact calm_unit calm_stringValueWriter
  | numberValueFromString t => exact calm_unit calm_numberValueFromString.weaken
  | numberValue n => exact calm_unit calm_numberValue.weaken
  | fpNumberValue n => exact calm_unit calm_fpNumberValue.weaken
  | serializeValue v =>
    refine calm_bind ?_
    intro c
    unfold onSerializer
    dsimp only
    refine (Ser.calm_serialize v c).bind ?_ ?_
    · rintro ⟨_ | a, c'⟩ - <;> trivial
    · rintro ⟨_ | a, c'⟩ ⟨e, h1, _⟩
      · cases h1; exact ⟨_, rfl⟩
      · cases h1
  | sv o => exact calm_onWriter fun c => (calm_svOp (o := o) c).mono (fun _ _ => trivial) fun r h => ⟨_, h.1.choose_spec.1⟩
  | finishValue => exact calm_unit calm_svFinishValue
  | finishDocument => exact calm_unit calm_finishDocument.weaken

theorem quiet_exec {t : Calls WCall WRes (Except SErr Unit)} (h : Sticky t) (c : Core) : ((exec t).run c).Quiet (fun _ => True) fun r => ∃ e, r.1 = .ok (.error e) := by
  induction t generalizing c with
  | ret x => trivial
  | panic p => exact h.elim
  | call w k ih =>
    unfold exec
    rw [T.run_bind]
    refine Tree.QuietB.bind (P := fun _ => True) (E := fun r => ∃ e, r.1 = .ok (.error e)) ?_ ?_ ?_
    · unfold catchErr
      refine (calm_perform w c).bind ?_ ?_
      · rintro ⟨r, c'⟩ -; trivial
      · rintro ⟨r, c'⟩ ⟨e, rfl⟩; exact ⟨e, rfl⟩
    · rintro ⟨e | r, c'⟩ -
      · nomatch e
      · cases r with
        | ok n => exact ih _ (h.1 n) c'
        | error e =>
          obtain ⟨e', he⟩ := h.2 e
          dsimp only
          rw [he]
          trivial
    · rintro ⟨e | r, c'⟩ ⟨e', h'⟩
      · nomatch e
      · cases h'
        obtain ⟨e2, he⟩ := h.2 e'
        dsimp only
        rw [he]
        exact ⟨e2, rfl⟩

/-! ## Complete programs -/

theorem flushed_ret {t : Tree α} {f : α → Tree β} (h : ∀ a, ∃ x, f a = .ret x) (b : Bool) : (t.bind f).flushed b = t.flushed b := by
  rw [flushed_bind]
  split
  · obtain ⟨x, hx⟩ := h ‹_›
    rw [hx]
    rfl
  · rfl

/-- the program after the value has been written -/
def after : Except SErr Unit × Option SErr → Calls WCall WRes (Except SErr Unit)
  | (.ok (), s) => (finishDocument.run s).bind fun (r, _) => .ret r
  | (.error e, _) => .ret (.error e)

theorem calls_assoc {γ : Type} (t : Calls WCall WRes α) (f : α → Calls WCall WRes β) (g : β → Calls WCall WRes γ) : (t.bind f).bind g = t.bind fun a => (f a).bind g :=
  Calls.bind_assoc t f g

theorem run_eq (o : ValOp) : run o = ((value o).run none).bind after := by
  unfold run write
  rw [CT.run_bind, calls_assoc]
  congr
  funext ⟨r, s⟩
  cases r <;> rfl

theorem after_ok : after (.ok (), none) = .call .finishDocument fun
    | .ok _ => .ret (.ok ())
    | .error e => .ret (.error e) := by
  show (finishDocument.run none).bind _ = _
  rw [finish_none]
  show Calls.call _ _ = _
  congr
  funext r
  cases r <;> rfl

theorem finish_emits {c : Core} {j : JVal} (hi : WInv wst c (Written.empty.add j)) (hok : WOk wst (Written.empty.add j)) : ∃ c',
    Emits (exec (after (.ok (), none))) c [] (.ok ()) c' ∧ ∀ b, ((exec (after (.ok (), none))).run c).flushed b = true := by
  have hs : Step wst (Written.empty.add j) .finishDocument (Written.empty.add j) := Step.finish (by simp)
  obtain ⟨bs, c', h1, h2, _⟩ := step_emits (op := .finishDocument) (m := Writer.finishDocument) hi hok trivial hs rfl nofun rfl
  have hb : bs = [] := by
    have := congrArg List.length h2
    simpa using this
  subst hb
  refine ⟨c', ?_, ?_⟩
  · rw [after_ok]
    exact (catchErr_emits (unit_emits h1)).last (by exact emits_pure)
  · intro b
    rw [after_ok]
    have hf : (Writer.finishDocument.run c).flushed b = true := by
      have h3 : Emits (wop .finishDocument) c [] .unit c' := h1.last emits_pure
      have := finish_flushed h3 b
      rw [show wop .finishDocument = (Writer.finishDocument >>= fun _ => pure .unit) from rfl, T.run_bind, flushed_ret] at this
      · exact this
      · rintro ⟨_ | _, _⟩ <;> exact ⟨_, rfl⟩
    unfold exec
    rw [T.run_bind, flushed_ret]
    · unfold catchErr
      dsimp only
      rw [flushed_ret fun _ => ⟨_, rfl⟩]
      unfold perform unit onWriter
      rw [T.run_bind, flushed_ret]
      · dsimp only
        rw [flushed_ret]
        · exact hf
        · rintro ⟨_ | _, _⟩ <;> exact ⟨_, rfl⟩
      · rintro ⟨_ | _, _⟩ <;> exact ⟨_, rfl⟩
    · rintro ⟨e | r, c'⟩
      · nomatch e
      · cases r <;> exact ⟨_, rfl⟩

theorem empty_add_bytes (j : JVal) : (Written.empty.add j).bytes wst = (cst wst 0 j).bytes := by
  simp [Written.bytes, Written.add, Written.empty, WSpec.framesBytes, WSpec.topsBytes]

theorem empty_bytes : Written.empty.bytes wst = [] := rfl

theorem empty_can : Written.empty.CanAdd wst := ⟨rfl, .inl rfl⟩

/-- the writer panics if something is not finished -/
theorem finish_panics {c : Core} (hi : WInv wst c w) (hok : WOk wst w) (hg : Grow 1 w) : ∃ p, Panics (exec (after (.ok (), none))) c [] p := by
  cases wop_outcome hi hok .finishDocument trivial with
  | done w' out bs c' h1 h2 h3 h4 h5 h6 =>
    exfalso
    cases h1 with
    | value _ hd => cases hd
    | rejected hr => cases hr
    | unfinished _ hu => cases hu
    | finish h =>
      rcases hg with hg | hg
      · exact hg rfl
      · exact absurd hg (by simp)
  | rejected h1 h2 => cases h1
  | panic u h1 h2 =>
    refine ⟨.usage u, ?_⟩
    rw [after_ok]
    exact Panics.bind (catchErr_panics (unit_panics (inv_panics (b := WOut.unit) h1)))

/-- The program, if the underlying `Write` does not fail -/
theorem run_ideal (o : ValOp) (hf : Fine o) :
    (∃ bs e c', Emits (exec (run o)) (Core.new wst) bs (.error e) c') ∨
    (∃ j c', Writes o j ∧ WSpec.JOk j ∧ Emits (exec (run o)) (Core.new wst) (cst wst 0 j).bytes (.ok ()) c' ∧ ∀ b, ((exec (run o)).run (Core.new wst)).flushed b = true) ∨
    (¬ Honest o ∧ ∃ bs p, Panics (exec (run o)) (Core.new wst) bs p) := by
  rw [run_eq]
  cases value_ends o hf (WInv.new wst) (WOk.empty wst) empty_can with
  | failed bs r e c' h =>
    refine .inl ?_
    cases r with
    | ok a => exact ⟨_, _, c', emits_bind (bs' := []) h (g := after) (y := Except.error (.previous e)) (by exact emits_pure)⟩
    | error e' => exact ⟨_, _, c', emits_bind (bs' := []) h (g := after) (y := Except.error e') (by exact emits_pure)⟩
  | panics bs p h1 h2 =>
    refine .inr (.inr ⟨h1, bs, p, ?_⟩)
    unfold Panics
    rw [exec_bind]
    exact Panics.bind h2
  | done bs r c' w' h1 h2 h3 h4 h5 =>
    rcases h5 with ⟨rfl, j, hw, rfl⟩ | ⟨hh, hg⟩
    · obtain ⟨c2, g1, g2⟩ := finish_emits h3 h4
      rw [empty_add_bytes, empty_bytes, List.nil_append] at h2
      subst h2
      refine .inr (.inl ⟨j, c2, hw, h4.tops.1, (emits_bind h1 g1).cast (List.append_nil _), fun b => ?_⟩)
      rw [exec_bind, T.run_bind, flushed_bind]
      unfold XE Emits at h1
      rw [h1]
      exact g2 _
    · cases r with
      | error e => exact .inl ⟨_, _, c', emits_bind (bs' := []) h1 (g := after) (y := Except.error e) (by exact emits_pure)⟩
      | ok a =>
        obtain ⟨p, hp⟩ := finish_panics h3 h4 hg
        refine .inr (.inr ⟨hh, bs ++ [], p, ?_⟩)
        unfold Panics
        rw [exec_bind]
        exact Emits.bind_panic h1 hp

theorem run_writes {o : ValOp} (hf : Fine o) {j : JVal} (hw : Writes o j) :
    ∃ c', WSpec.JOk j ∧ Emits (exec (run o)) (Core.new wst) (cst wst 0 j).bytes (.ok ()) c' ∧ ∀ b, ((exec (run o)).run (Core.new wst)).flushed b = true := by
  rw [run_eq]
  obtain ⟨bs, c', h1, h2, h3, h4⟩ := value_runs o hf hw empty_can _ (WInv.new wst) (WOk.empty wst)
  obtain ⟨c2, g1, g2⟩ := finish_emits h3 h4
  rw [empty_add_bytes, empty_bytes, List.nil_append] at h2
  subst h2
  refine ⟨c2, h4.tops.1, (emits_bind h1 g1).cast (List.append_nil _), fun b => ?_⟩
  rw [exec_bind, T.run_bind, flushed_bind]
  unfold XE Emits at h1
  rw [h1]
  exact g2 _

end Verif.SimpleWriter

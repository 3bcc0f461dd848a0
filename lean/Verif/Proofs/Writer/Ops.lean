import Verif.Proofs.Writer.Core
import Verif.Proofs.Number
/-!
# Every call of a method of the writer does what the specification says
-/

namespace Verif.Writer
open Json Utf8
open WSpec (Written Step Denotes Rejected Unfinished strLit gap sep close colonWs cst lead JOk JOks JOkm SvWrites svData)

/-- Trusted: `to_string` of a finite `f32` or `f64` is a JSON number. The constructor of `TransferredNumber` is not public, it is only created for the text
of a number which has been read. -/
def OpOk : WOp → Prop
  | .numberValue (.transferred t) => IsNumber (enc t)
  | .fpNumberValue n => n.finite = true → IsNumber (enc n.text)
  | _ => True

/-- What a call does if the underlying `Write` does not fail -/
inductive Outcome (st : WSettings) (c : Core) (w : Written) (op : WOp) : Prop
  | done (w' : Written) (out : WOut) (bs : Bytes) (c' : Core) : Step st w op w' → Emits (wop op) c bs out c' → w'.bytes st = w.bytes st ++ bs → WInv st c' w' →
      ¬ Rejected op → (out = .unit ∨ ∃ ops fin, op = .stringValueWriter ops fin) → Outcome st c w op
  | rejected : Rejected op → Errs (wop op) c [] .invalidNumber c → Outcome st c w op
  | panic (u : WUsage) : Panics (wop op) c [] (.usage u) → (¬ ∃ w', Step st w op w') → Outcome st c w op

variable {st : WSettings} {c : Core} {w : Written}

theorem Added.winv {c' : Core} (h : Added st c c' w) (hw : w.str = none) (v : JVal) : WInv st c' (w.add v) := by
  have hs : (w.add v).str = none := by
    rw [← hw]
    unfold Written.add
    split <;> rfl
  exact ⟨h.settings, by rw [hs]; exact h.active, fun _ => h.full v⟩

/-- a method which writes a complete value -/
theorem value_outcome {op : WOp} {v : JVal} {m : W Unit} {bs : Bytes} (h : WInv st c w) (hm : wop op = (do beforeValue; m; pure .unit))
    (hd : Denotes op v) (hop : ∀ w', Step st w op w' → w.CanAdd st) (hr : ¬ Rejected op) (he : ∀ c', c'.settings = st → Emits m c' bs () c')
    (hb : bs = (cst st w.frames.length v).bytes) : Outcome st c w op := by
  by_cases hc : w.CanAdd st
  · obtain ⟨c', h1, h2⟩ := beforeValue_emits h hc
    refine .done (w.add v) .unit (lead st w.tops w.frames ++ bs) c' (.value hc hd) ?_ ?_ (h2.winv hc.1 v) hr (.inl rfl)
    · rw [hm]
      exact h1.bind ((he c' h2.settings).last emits_pure)
    · rw [WSpec.add_bytes hc, hb]
  · obtain ⟨u, hu⟩ := beforeValue_panics h hc
    exact .panic u (by rw [hm]; exact hu.bind) (fun ⟨w', h'⟩ => hc (hop w' h'))

theorem bind_assoc' {α β γ : Type} (m : W α) (f : α → W β) (g : β → W γ) : ((m >>= f) >>= g) = (m >>= fun a => f a >>= g) := by
  have hT : ∀ {α β γ : Type} (t : Tree α) (f : α → Tree β) (g : β → Tree γ), (t.bind f).bind g = t.bind fun a => (f a).bind g := by
    intro α β γ t f g
    induction t with
    | ret a => rfl
    | panic p => rfl
    | emit bs k ih => simp only [Tree.bind, ih]
    | flush k ih => simp only [Tree.bind, ih]
  have hx : ∀ (a b : W γ), a.run = b.run → a = b := by rintro ⟨_⟩ ⟨_⟩ rfl; rfl
  refine hx _ _ (funext fun s => ?_)
  rw [T.run_bind, T.run_bind, T.run_bind, hT]
  congr 1
  funext r
  obtain ⟨_ | a, s'⟩ := r
  · rfl
  · rfl

theorem number_outcome {op : WOp} {t : Text} (h : WInv st c w) (hm : wop op = (do (do beforeValue; T.writeBytes (enc t) : W Unit); pure .unit))
    (hd : Denotes op (.num t)) (hop : ∀ w', Step st w op w' → w.CanAdd st) (hr : ¬ Rejected op) : Outcome st c w op :=
  value_outcome h (by rw [hm, bind_assoc']) hd hop hr (fun _ _ => emits_writeBytes) (by rw [cst]; rfl)

theorem isValid_iff (t : Text) : isValid t = true ↔ IsNumber (enc t) := JsonNumber.isValidJsonNumber_iff _

theorem beginArray_outcome (h : WInv st c w) : Outcome st c w .beginArray := by
  by_cases hc : w.CanAdd st
  · obtain ⟨c', h1, h2⟩ := beforeValue_emits h hc
    refine .done { w with frames := .arr [] :: w.frames } .unit (lead st w.tops w.frames ++ [0x5B])
      { c' with stack := .array :: c'.stack, isEmpty := true, expectsMemberName := false } (.beginArray hc) ?_ ?_ ?_ nofun (.inl rfl)
    · show Emits (beginArray >>= fun _ => pure WOut.unit) _ _ _ _
      refine Emits.last (a := ()) ?_ emits_pure
      unfold beginArray
      refine h1.bind ?_
      refine Emits.seq (a := ()) emits_modify (Emits.seq (a := ()) emits_modify (Emits.seq (a := ()) emits_modify ?_))
      exact emits_writeBytes
    · simp [Written.bytes, hc.1, WSpec.framesBytes, WSpec.Frame.bytes, WSpec.openItems]
    · refine ⟨h2.settings, by rw [hc.1]; exact h2.active, fun _ => ⟨?_, rfl, rfl, ?_, (h2.full .null).sv⟩⟩
      · rw [h2.stack]; rfl
      · show c'.indentationLevel = if c'.settings.prettyPrint then _ else 0
        rw [h2.level, h2.settings]; rfl
  · obtain ⟨u, hu⟩ := beforeValue_panics h hc
    refine .panic u (by exact hu.bind.bind) ?_
    rintro ⟨w', h'⟩
    cases h' with
    | value _ hd => cases hd
    | rejected hr => cases hr
    | unfinished _ hu => cases hu
    | beginArray h' => exact hc h'

theorem beginObject_outcome (h : WInv st c w) : Outcome st c w .beginObject := by
  by_cases hc : w.CanAdd st
  · obtain ⟨c', h1, h2⟩ := beforeValue_emits h hc
    refine .done { w with frames := .obj [] none :: w.frames } .unit (lead st w.tops w.frames ++ [0x7B])
      { c' with stack := .object :: c'.stack, isEmpty := true, expectsMemberName := true } (.beginObject hc) ?_ ?_ ?_ nofun (.inl rfl)
    · show Emits (beginObject >>= fun _ => pure WOut.unit) _ _ _ _
      refine Emits.last (a := ()) ?_ emits_pure
      unfold beginObject
      refine h1.bind ?_
      refine Emits.seq (a := ()) emits_modify (Emits.seq (a := ()) emits_modify (Emits.seq (a := ()) emits_modify ?_))
      exact emits_writeBytes
    · simp [Written.bytes, hc.1, WSpec.framesBytes, WSpec.Frame.bytes, WSpec.openMembers]
    · refine ⟨h2.settings, by rw [hc.1]; exact h2.active, fun _ => ⟨?_, rfl, rfl, ?_, (h2.full .null).sv⟩⟩
      · rw [h2.stack]; rfl
      · show c'.indentationLevel = if c'.settings.prettyPrint then _ else 0
        rw [h2.level, h2.settings]; rfl
  · obtain ⟨u, hu⟩ := beforeValue_panics h hc
    refine .panic u (by exact hu.bind.bind) ?_
    rintro ⟨w', h'⟩
    cases h' with
    | value _ hd => cases hd
    | rejected hr => cases hr
    | unfinished _ hu => cases hu
    | beginObject h' => exact hc h'

theorem endArray_outcome (h : WInv st c w) (hok : WOk st w) : Outcome st c w .endArray := by
  obtain ⟨tops, frames, str⟩ := w
  by_cases hx : ∃ vs fs, frames = .arr vs :: fs ∧ str = none
  · obtain ⟨vs, fs, rfl, rfl⟩ := hx
    have hf := h.full rfl
    have ha : c.stringWriterActive = false := h.active
    have hem : c.isEmpty = vs.isEmpty := hf.empty
    have hcan : Written.CanAdd st ⟨tops, fs, none⟩ := hok.frames.1
    have hst := h.settings
    subst hst
    refine .done _ .unit ((close c.settings fs.length c.isEmpty).bytes ++ [0x5D]) (popped c fs.length) .endArray ?_ ?_ ?_ nofun (.inl rfl)
    · show Emits (endArray >>= fun _ => pure WOut.unit) _ _ _ _
      refine Emits.last (a := ()) ?_ emits_pure
      unfold endArray
      refine emits_get.seq ?_
      rw [if_neg (by have : isInArray c = true := hf.inArray
                     rw [this]; exact Bool.false_ne_true), if_neg (by rw [ha]; exact Bool.false_ne_true)]
      refine (onContainerEnd_emits ?_).bind emits_writeBytes
      rw [hem]; exact hf.level
    · rw [WSpec.add_bytes hcan, cst, Cst.bytes, WSpec.items_bytes, hem]
      simp [Written.bytes, WSpec.framesBytes, WSpec.Frame.bytes]
    · refine ⟨rfl, ?_, fun _ => full_popped (by rw [hf.stack]; rfl) hf.sv hcan⟩
      have : (Written.add ⟨tops, fs, none⟩ (.arr vs)).str = none := by unfold Written.add; split <;> rfl
      rw [this]; exact ha
  · refine .panic (if isInArray c then .endArrayStringWriterActive else .endArrayNotInArray) ?_ ?_
    · show Panics (endArray >>= fun _ => pure WOut.unit) _ _ _
      refine Panics.bind ?_
      unfold endArray
      refine emits_get.seq_panic ?_
      by_cases hi : isInArray c = true
      · rw [if_neg (by rw [hi]; exact Bool.false_ne_true), if_pos hi]
        cases str with
        | some t => rw [if_pos (by exact h.active)]; exact panics_usage
        | none =>
          exfalso
          have hf := h.full rfl
          rw [hf.inArray] at hi
          match frames, hi with
          | .arr vs :: fs, _ => exact hx ⟨vs, fs, rfl, rfl⟩
      · rw [if_pos (by simp [hi]), if_neg hi]; exact panics_usage
    · rintro ⟨w', h'⟩
      cases h' with
      | value _ hd => cases hd
      | rejected hr => cases hr
      | unfinished _ hu => cases hu
      | endArray => exact hx ⟨_, _, rfl, rfl⟩

theorem endObject_outcome (h : WInv st c w) (hok : WOk st w) : Outcome st c w .endObject := by
  obtain ⟨tops, frames, str⟩ := w
  by_cases hx : ∃ ms fs, frames = .obj ms none :: fs ∧ str = none
  · obtain ⟨vs, fs, rfl, rfl⟩ := hx
    have hf := h.full rfl
    have ha : c.stringWriterActive = false := h.active
    have hem : c.isEmpty = vs.isEmpty := hf.empty
    have hcan : Written.CanAdd st ⟨tops, fs, none⟩ := hok.frames.1
    have hst := h.settings
    subst hst
    refine .done _ .unit ((close c.settings fs.length c.isEmpty).bytes ++ [0x7D]) (popped c fs.length) .endObject ?_ ?_ ?_ nofun (.inl rfl)
    · show Emits (endObject >>= fun _ => pure WOut.unit) _ _ _ _
      refine Emits.last (a := ()) ?_ emits_pure
      unfold endObject
      refine emits_get.seq ?_
      rw [if_neg (by have : isInObject c = true := hf.inObject
                     rw [this]; exact Bool.false_ne_true), if_neg (by rw [ha]; exact Bool.false_ne_true),
        if_neg (by have : c.expectsMemberName = true := hf.expects
                   rw [this]; exact Bool.false_ne_true)]
      refine (onContainerEnd_emits ?_).bind emits_writeBytes
      rw [hem]
      have := hf.level
      simpa [level] using this
    · rw [WSpec.add_bytes hcan, cst, Cst.bytes, WSpec.members_bytes, hem]
      simp [Written.bytes, WSpec.framesBytes, WSpec.Frame.bytes]
    · refine ⟨rfl, ?_, fun _ => full_popped (by rw [hf.stack]; rfl) hf.sv hcan⟩
      have : (Written.add ⟨tops, fs, none⟩ (.obj vs)).str = none := by unfold Written.add; split <;> rfl
      rw [this]; exact ha
  · refine .panic (if isInObject c then (if c.stringWriterActive then .endObjectStringWriterActive else .endObjectValueExpected) else .endObjectNotInObject) ?_ ?_
    · show Panics (endObject >>= fun _ => pure WOut.unit) _ _ _
      refine Panics.bind ?_
      unfold endObject
      refine emits_get.seq_panic ?_
      by_cases hi : isInObject c = true
      · rw [if_neg (by rw [hi]; exact Bool.false_ne_true), if_pos hi]
        cases str with
        | some t => rw [if_pos (by exact h.active), if_pos (by exact h.active)]; exact panics_usage
        | none =>
          have ha : ¬ c.stringWriterActive = true := by rw [show c.stringWriterActive = false from h.active]; exact Bool.false_ne_true
          rw [if_neg ha, if_neg ha]
          have hf := h.full rfl
          rw [hf.inObject] at hi
          match frames, hi, hf with
          | .obj ms none :: fs, _, _ => exact absurd ⟨ms, fs, rfl, rfl⟩ hx
          | .obj ms (some n) :: fs, _, hf =>
            rw [if_pos (by have : c.expectsMemberName = false := hf.expects
                           rw [this]; rfl)]
            exact panics_usage
      · rw [if_pos (by simp [hi]), if_neg hi]; exact panics_usage
    · rintro ⟨w', h'⟩
      cases h' with
      | value _ hd => cases hd
      | rejected hr => cases hr
      | unfinished _ hu => cases hu
      | endObject => exact hx ⟨_, _, rfl, rfl⟩

theorem colon_bytes : (if st.prettyPrint then [0x3A, 0x20] else [0x3A] : Bytes) = 0x3A :: (colonWs st).bytes := by
  unfold colonWs
  split <;> rfl

theorem name_outcome (h : WInv st c w) (n : Text) : Outcome st c w (.name n) := by
  obtain ⟨tops, frames, str⟩ := w
  by_cases hx : ∃ ms fs, frames = .obj ms none :: fs ∧ str = none
  · obtain ⟨ms, fs, rfl, rfl⟩ := hx
    have hf := h.full rfl
    have ha : c.stringWriterActive = false := h.active
    have hem : c.isEmpty = ms.isEmpty := hf.empty
    have hst := h.settings
    subst hst
    refine .done _ .unit ((sep c.settings fs.length c.isEmpty).bytes ++ ((strLit c.settings n).bytes ++ (0x3A :: (colonWs c.settings).bytes)))
      { c with indentationLevel := if c.settings.prettyPrint then fs.length + 1 else 0, expectsMemberName := false } .name ?_ ?_ ?_ nofun (.inl rfl)
    · show Emits (name n >>= fun _ => pure WOut.unit) _ _ _ _
      refine Emits.last (a := ()) ?_ emits_pure
      unfold name
      refine emits_get.seq ?_
      rw [if_neg (by have : c.expectsMemberName = true := hf.expects
                     rw [this]; exact Bool.false_ne_true), if_neg (by rw [ha]; exact Bool.false_ne_true)]
      refine (beforeContainerElement_emits ?_).bind ((string_emits _ _).bind (emits_get.seq ?_))
      · rw [hem]
        have := hf.level
        simpa [level] using this
      · dsimp only
        rw [colon_bytes]
        refine emits_writeBytes.last ?_
        exact emits_modify
    · rw [hem]
      simp [Written.bytes, WSpec.framesBytes, WSpec.Frame.bytes]
    · refine ⟨rfl, ha, fun _ => ⟨hf.stack, rfl, hem, ?_, hf.sv⟩⟩
      show (if c.settings.prettyPrint then _ else _) = if c.settings.prettyPrint then _ else _
      simp [level]
  · refine .panic (if c.expectsMemberName then .nameStringWriterActive else .nameNotExpected) ?_ ?_
    · show Panics (name n >>= fun _ => pure WOut.unit) _ _ _
      refine Panics.bind ?_
      unfold name
      refine emits_get.seq_panic ?_
      by_cases hi : c.expectsMemberName = true
      · rw [if_neg (by rw [hi]; exact Bool.false_ne_true), if_pos hi]
        cases str with
        | some t => rw [if_pos (by exact h.active)]; exact panics_usage
        | none =>
          exfalso
          have hf := h.full rfl
          rw [hf.expects] at hi
          match frames, hi with
          | .obj ms none :: fs, _ => exact hx ⟨ms, fs, rfl, rfl⟩
      · rw [if_pos (by simp [hi]), if_neg hi]; exact panics_usage
    · rintro ⟨w', h'⟩
      cases h' with
      | value _ hd => cases hd
      | rejected hr => cases hr
      | unfinished _ hu => cases hu
      | name => exact hx ⟨_, _, rfl, rfl⟩

theorem finish_outcome (h : WInv st c w) : Outcome st c w .finishDocument := by
  obtain ⟨tops, frames, str⟩ := w
  have hno : (¬ (frames = [] ∧ str = none ∧ tops ≠ [])) → ¬ ∃ w', Step st ⟨tops, frames, str⟩ .finishDocument w' := by
    rintro hx ⟨w', h'⟩
    cases h' with
    | value _ hd => cases hd
    | rejected hr => cases hr
    | unfinished _ hu => cases hu
    | finish h' => exact hx ⟨rfl, rfl, h'⟩
  have panics : ∀ u, Panics finishDocument c [] (.usage u) → Panics (wop .finishDocument) c [] (.usage u) := fun u h => h.bind
  cases str with
  | some t =>
    refine .panic .finishStringWriterActive (panics _ (emits_get.seq_panic ?_)) (hno nofun)
    rw [if_pos (by exact h.active)]; exact panics_usage
  | none =>
    have hf := h.full rfl
    have ha : ¬ c.stringWriterActive = true := by rw [show c.stringWriterActive = false from h.active]; exact Bool.false_ne_true
    by_cases he : c.expectsMemberName = true
    · refine .panic .finishNameExpected (panics _ (emits_get.seq_panic ?_)) (hno ?_)
      · rw [if_neg ha, if_pos he]; exact panics_usage
      · rintro ⟨rfl, -, -⟩
        rw [hf.expects] at he; cases he
    · cases frames with
      | cons f fs =>
        refine .panic .finishNotFinished (panics _ (emits_get.seq_panic ?_)) (hno nofun)
        rw [if_neg ha, if_neg he, if_neg (by rw [hf.stack]; simp)]; exact panics_usage
      | nil =>
        have hs : c.stack.isEmpty = true := by rw [hf.stack]; rfl
        cases tops with
        | nil =>
          refine .panic .finishNothingWritten (panics _ (emits_get.seq_panic ?_)) (hno fun h => h.2.2 rfl)
          rw [if_neg ha, if_neg he, if_pos hs, if_pos (by rw [hf.empty]; rfl)]; exact panics_usage
        | cons v vs =>
          refine .done _ .unit [] c (.finish nofun) ?_ (by simp) h nofun (.inl rfl)
          refine Emits.seq (a := ()) (s' := c) (emits_get.seq ?_) emits_pure
          rw [if_neg ha, if_neg he, if_pos hs, if_neg (by rw [hf.empty]; exact Bool.false_ne_true)]
          exact emits_flush

/-! ## String value writers -/

theorem stringValueWriter_emits (h : WInv st c w) (hc : w.CanAdd st) : ∃ c', Emits stringValueWriter c (lead st w.tops w.frames ++ [0x22]) ()
    { c' with stringWriterActive := true, sv := .new } ∧ Added st c c' w := by
  obtain ⟨c', h1, h2⟩ := beforeValue_emits h hc
  refine ⟨c', ?_, h2⟩
  unfold stringValueWriter
  exact h1.bind (emits_writeBytes.last emits_modify)

/-- state of an unfinished string value -/
theorem winv_unfinished {c' c'' : Core} {t : Text} (h : Added st c c' w) (hs : Same { c' with stringWriterActive := true, sv := .new } c'') :
    WInv st c'' { w with str := some t } := by
  refine ⟨?_, ?_, nofun⟩
  · rw [hs]; exact h.settings
  · rw [hs]; rfl

theorem winv_finished {c' c'' : Core} {v : JVal} (h : Added st c c' w) (hw : w.str = none) (hs : Same { c' with stringWriterActive := true, sv := .new } c'') :
    WInv st { c'' with stringWriterActive := false, sv := .new } (w.add v) := by
  rw [hs]
  have := h.winv hw v
  refine ⟨this.settings, ?_, fun h' => ?_⟩
  · rw [← this.active]; exact h.active.symm
  · obtain ⟨a, b, d, e, f⟩ := this.full h'
    exact ⟨a, b, d, e, rfl⟩

/-- The three ways a string value can end: it is complete; incomplete UTF-8 at the end; a call fails (at position `k`) -/
theorem string_outcome (h : WInv st c w) (hc : w.CanAdd st) (ops : List SvOp) :
    (∃ t c', SvWrites ops t ∧
      Emits (wop (.stringValueWriter ops true)) c (lead st w.tops w.frames ++ (strLit st t).bytes) (.string (ops.map fun o => .ok (svOk o)) (some (.ok ()))) c' ∧
      WInv st c' (w.add (.str t)) ∧
      ∃ c'', Emits (wop (.stringValueWriter ops false)) c (lead st w.tops w.frames ++ (0x22 :: (strLit st t).body)) (.string (ops.map fun o => .ok (svOk o)) none) c'' ∧
        WInv st c'' { w with str := some t }) ∨
    (∃ t c' rs e, (¬ ∃ u, SvWrites ops u) ∧ enc t <+: svData ops ∧ WInv st c' { w with str := some t } ∧
      Emits (wop (.stringValueWriter ops true)) c (lead st w.tops w.frames ++ (0x22 :: (strLit st t).body)) (.string rs (some (.error e))) c' ∧
      Emits (wop (.stringValueWriter ops false)) c (lead st w.tops w.frames ++ (0x22 :: (strLit st t).body)) (.string rs none) c' ∧
      ((rs = ops.map (fun o => .ok (svOk o)) ∧ e = .incompleteUtf8) ∨
        ∃ k e', k < ops.length ∧ rs = svFailed ops k e' ∧ e = .previous e' ∧ (e' = .invalidUtf8 ∨ e' = .incompleteUtf8))) := by
  obtain ⟨c', h1, h2⟩ := stringValueWriter_emits h hc
  have hset : ({ c' with stringWriterActive := true, sv := .new } : Core).settings = st := h2.settings
  have parts : ∀ {t rs c2}, Emits (svOps ops) { c' with stringWriterActive := true, sv := .new } (strLit st t).body rs c2 →
      Emits (wop (.stringValueWriter ops false)) c (lead st w.tops w.frames ++ (0x22 :: (strLit st t).body)) (.string rs none) c2 ∧
      ∀ {b r c3}, Emits (T.attempt svFinishValue) c2 b r c3 →
        Emits (wop (.stringValueWriter ops true)) c (lead st w.tops w.frames ++ (0x22 :: ((strLit st t).body ++ b))) (.string rs (some r)) c3 := by
    intro t rs c2 ho
    constructor
    · refine (h1.bind (ho.last ?_)).cast (by simp)
      exact emits_pure
    · intro b r c3 hf
      refine (h1.bind (ho.bind (bs' := b) ?_)).cast (by simp)
      exact hf.last emits_pure
  rcases svOps_emits ops (SvInv.new c') with ⟨t, pend, c2, he, hd, hsame, hinv, hal⟩ | ⟨t, k, e, c2, hk, he, hd, hsame, hen, hee, hno⟩
  · rw [show strLit ({ c' with stringWriterActive := true, sv := .new } : Core).settings t = strLit st t by rw [hset]] at he
    obtain ⟨p1, p2⟩ := parts he
    by_cases hp : pend = []
    · subst hp
      refine .inl ⟨t, _, ⟨by simpa using hd, fun pre u post h => by simpa using hal pre u post h⟩, ?_, winv_finished h2 hc.1 hsame, c2, p1, winv_unfinished h2 hsame⟩
      exact (p2 (svFinish_emits hinv).attempt).cast (by simp [Str.bytes])
    · refine .inr ⟨t, c2, _, .incompleteUtf8, ?_, ⟨pend, by simpa using hd.symm⟩, winv_unfinished h2 hsame, ?_, p1, .inl ⟨rfl, rfl⟩⟩
      · rintro ⟨u, hu, -⟩
        rw [List.nil_append, hu] at hd
        obtain ⟨T2, -, h4⟩ := enc_split hd.symm
        exact hp (pend_not_enc hinv h4)
      · exact (p2 (svFinish_incomplete hinv hp).attempt).cast (by simp)
  · rw [show strLit ({ c' with stringWriterActive := true, sv := .new } : Core).settings t = strLit st t by rw [hset]] at he
    obtain ⟨p1, p2⟩ := parts he
    refine .inr ⟨t, c2, _, .previous e, ?_, by simpa using hd, winv_unfinished h2 hsame, ?_, p1, .inr ⟨k, e, hk, rfl, rfl, hee⟩⟩
    · rintro ⟨u, hu, hal⟩
      exact hno ⟨[], u, by simpa using hu, fun pre v post h => by simpa using hal pre v post h⟩
    · have : Errs svFinishValue c2 [] (.previous e) c2 := by unfold Errs; rw [svFinish_sticky hen]; rfl
      exact (p2 this.attempt).cast (by simp)

theorem stringValueWriter_outcome (h : WInv st c w) (ops : List SvOp) (fin : Bool) : Outcome st c w (.stringValueWriter ops fin) := by
  by_cases hc : w.CanAdd st
  · have hb : ∀ t, ({ w with str := some t } : Written).bytes st = w.bytes st ++ (lead st w.tops w.frames ++ (0x22 :: (strLit st t).body)) := by
      intro t; simp [Written.bytes, hc.1]
    rcases string_outcome h hc ops with ⟨t, c', hw, h1, h2, c'', h3, h4⟩ | ⟨t, c', rs, e, hno, hp, h1, h2, h3, h4⟩
    · cases fin with
      | true =>
        refine .done _ _ _ _ (.value hc (.stringWriter _ _ hw)) h1 ?_ h2 nofun (.inr ⟨_, _, rfl⟩)
        rw [WSpec.add_bytes hc, cst]; rfl
      | false => exact .done _ _ _ _ (.unfinished hc (.notCalled _ t ⟨[], by rw [hw.1]; simp⟩)) h3 (hb t) h4 nofun (.inr ⟨_, _, rfl⟩)
    · cases fin with
      | true => exact .done _ _ _ _ (.unfinished hc (.invalid _ t hp hno)) h2 (hb t) h1 nofun (.inr ⟨_, _, rfl⟩)
      | false => exact .done _ _ _ _ (.unfinished hc (.notCalled _ t hp)) h3 (hb t) h1 nofun (.inr ⟨_, _, rfl⟩)
  · obtain ⟨u, hu⟩ := beforeValue_panics h hc
    refine .panic u (by exact hu.bind.bind) ?_
    rintro ⟨w', h'⟩
    cases h' with
    | value h' _ => exact hc h'
    | rejected hr => cases hr
    | unfinished h' _ => exact hc h'

/-! ## All calls -/

theorem step_canAdd {op : WOp} (hnr : ¬ Rejected op) (hop : match op with | .stringValue _ | .boolValue _ | .nullValue | .numberValue _ | .fpNumberValue _ | .numberValueFromString _ => True | _ => False)
    {w' : Written} (h : Step st w op w') : w.CanAdd st := by
  cases h with
  | value h _ => exact h
  | rejected h => exact absurd h hnr
  | unfinished h _ => exact h
  | beginArray h => exact h
  | beginObject h => exact h
  | endArray => cases hop
  | endObject => cases hop
  | name => cases hop
  | finish => cases hop

/-- Every call has one of the three specified outcomes -/
theorem wop_outcome (h : WInv st c w) (hok : WOk st w) (op : WOp) (hop : OpOk op) : Outcome st c w op := by
  cases op with
  | beginObject => exact beginObject_outcome h
  | name n => exact name_outcome h n
  | endObject => exact endObject_outcome h hok
  | beginArray => exact beginArray_outcome h
  | endArray => exact endArray_outcome h hok
  | finishDocument => exact finish_outcome h
  | stringValueWriter ops fin => exact stringValueWriter_outcome h ops fin
  | stringValue t =>
    refine value_outcome h (v := .str t) (m := writeStringValue t) ?_ (.string t) (fun w' => step_canAdd (by rintro ⟨⟩) trivial) (by rintro ⟨⟩) (bs := (strLit st t).bytes) ?_ (by rw [cst]; rfl)
    · exact bind_assoc' _ _ _
    · rintro c' rfl; exact string_emits _ _
  | boolValue b =>
    refine value_outcome h (v := .bool b) (m := T.writeBytes (if b then [0x74, 0x72, 0x75, 0x65] else [0x66, 0x61, 0x6C, 0x73, 0x65])) ?_ (.bool b) (fun w' => step_canAdd (by rintro ⟨⟩) trivial) (by rintro ⟨⟩) (fun _ _ => emits_writeBytes) ?_
    · exact bind_assoc' _ _ _
    · rw [cst]; cases b <;> rfl
  | nullValue =>
    refine value_outcome h (v := .null) (m := T.writeBytes [0x6E, 0x75, 0x6C, 0x6C]) ?_ .null (fun w' => step_canAdd (by rintro ⟨⟩) trivial) (by rintro ⟨⟩) (fun _ _ => emits_writeBytes) ?_
    · exact bind_assoc' _ _ _
    · rw [cst]; rfl
  | numberValue n =>
    cases n with
    | int t v =>
      have hv : isValid (intToString v) = true := (isValid_iff _).2 (isInteger_number (intToString_isInteger v))
      refine number_outcome h (t := intToString v) ?_ (.int t v _ (intToString_isInteger v)) (fun w' => step_canAdd (by rintro ⟨⟩) trivial) (by rintro ⟨⟩)
      show (numberValue (.int t v) >>= fun _ => pure WOut.unit) = _
      unfold numberValue FinNum.useJsonNumber
      dsimp only
      rw [if_pos hv]
    | transferred t => exact number_outcome h (t := t) rfl (.transferred t hop) (fun w' => step_canAdd (by rintro ⟨⟩) trivial) (by rintro ⟨⟩)
  | fpNumberValue n =>
    obtain ⟨fin, t⟩ := n
    cases fin with
    | true =>
      have hn : IsNumber (enc t) := hop rfl
      refine number_outcome h (t := t) ?_ (.float t hn) (fun w' => step_canAdd (by rintro ⟨⟩) trivial) (by rintro ⟨⟩)
      show (fpNumberValue ⟨true, t⟩ >>= fun _ => pure WOut.unit) = _
      unfold fpNumberValue FpNum.useJsonNumber
      dsimp only
      rw [if_pos rfl, if_pos ((isValid_iff _).2 hn)]
    | false => exact .rejected (.float t) (by exact errs_fail.bind)
  | numberValueFromString t =>
    by_cases hn : IsNumber (enc t)
    · have hr : ¬ Rejected (.numberValueFromString t) := by rintro ⟨⟩; contradiction
      refine number_outcome h (t := t) ?_ (.number t hn) (fun w' => step_canAdd hr trivial) hr
      show (numberValueFromString t >>= fun _ => pure WOut.unit) = _
      unfold numberValueFromString
      rw [if_pos ((isValid_iff _).2 hn)]
    · refine .rejected (.number t hn) ?_
      show Errs (numberValueFromString t >>= fun _ => pure WOut.unit) _ _ _ _
      unfold numberValueFromString
      rw [if_neg (by rw [isValid_iff]; exact hn)]
      exact errs_fail.bind

end Verif.Writer

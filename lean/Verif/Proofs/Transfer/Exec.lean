import Verif.Proofs.Transfer.Rel
import Verif.Proofs.Transfer.Value
import Verif.Proofs.Run
import Verif.Proofs.Abs.ReadAt
import Verif.Proofs.Writer.Exec
/-!
# Programs which use `transfer_to`
-/

namespace Verif.Transfer
open Reader Writer Json
open WSpec (Written Steps)

/-! ## The reader with internal buffer and the reader on a list of bytes -/

section
variable {σ1 σ2 : Type} [ByteSource σ1] [ByteSource σ2] {S : Sim σ1 σ2}

/-- the same results -/
def OutRel (S : Sim σ1 σ2) (x : Except Empty (TOut σ1) × Core) (y : Except Empty (TOut σ2) × Core) : Prop :=
  ∃ a b, x.1 = .ok a ∧ y.1 = .ok b ∧ a.pre = b.pre ∧ a.transfer = b.transfer ∧ a.post = b.post ∧ (S.RRel (.idle false) a.reader b.reader ∨ stopsReader a.transfer = true)

theorem transferOps_rel (hX : ∀ e, ¬ S.X e) (wpre wpost : List WOp) {s1 : RState σ1} {s2 : RState σ2} (h : S.RRel (.idle false) s1 s2) (c : Core) :
    Tree.Rel (OutRel S) ((transferOps wpre wpost s1).run c) ((transferOps wpre wpost s2).run c) := by
  unfold transferOps
  rw [T.run_bind, T.run_bind]
  refine (Tree.Rel.refl (P := Eq) (fun _ => rfl) ((wops wpre).run c)).bind ?_
  rintro ⟨x, c'⟩ _ rfl
  cases x with
  | error e => exact nomatch e
  | ok pre =>
    dsimp only
    by_cases hp : (pre.any callFailed) = true
    · rw [if_pos hp, if_pos hp]
      exact ⟨_, _, rfl, rfl, rfl, rfl, rfl, .inl h⟩
    · rw [if_neg hp, if_neg hp, T.run_bind, T.run_bind]
      refine Tree.Rel.bind (P := fun x y => ∃ r t1 t2, x = (.ok (r, t1), y.2) ∧ y.1 = .ok (r, t2) ∧ (S.RRel (.idle false) t1 t2 ∨ stopsReader (some r) = true)) ?_ ?_
      · refine (transferTo_rel hX s1 s2 c' h).bind ?_
        rintro ⟨x, t1, c1⟩ ⟨y, t2, c2⟩ ⟨h1, h2, h3⟩
        dsimp only at h1 h2 h3
        subst h1 h2
        refine ⟨x, t1, t2, rfl, rfl, ?_⟩
        rcases h3 with h3 | ⟨e, rfl, he⟩
        · exact .inl h3
        · cases hf : e.fatal with
          | true => exact .inr hf
          | false => exact .inl (he.1 ((RErr.fatal_iff e).1 hf))
      · rintro x ⟨y, c2⟩ ⟨r, t1, t2, rfl, h2, h3⟩
        dsimp only at h2
        subst h2
        dsimp only
        cases r with
        | error e => exact ⟨_, _, rfl, rfl, rfl, rfl, rfl, h3⟩
        | ok u =>
          dsimp only
          rw [T.run_bind, T.run_bind]
          refine (Tree.Rel.refl (P := Eq) (fun _ => rfl) ((wops wpost).run c2)).bind ?_
          rintro ⟨x, c'⟩ _ rfl
          cases x with
          | error e => exact nomatch e
          | ok post => exact ⟨_, _, rfl, rfl, rfl, rfl, rfl, h3⟩

end

/-- the result of `runTransfer` -/
def finishRun {σ : Type} [ByteSource σ] (post : List Op) : Res WPanic BufSink (Except Empty (TOut σ) × Core) → Option (Except WPanic TransferRun × Sink)
  | .ok (.ok t, _) k => some (.ok ⟨t.pre, t.transfer, t.post, if stopsReader t.transfer then [] else runOps post t.reader⟩, k.sink)
  | .ok (.error e, _) _ => nomatch e
  | .err p k => some (.error p, k.sink)

/-- `runTransfer` with the reader on a list of bytes -/
def runTransferAbs (st : Settings) (bytes : Bytes) (e : Option Nat) (pre post : List Op) (M : Nat) (wst : WSettings) (sink : Sink) (wpre wpost : List WOp) :
    Option (Except WPanic TransferRun × Sink) :=
  match stateAfter pre (new (⟨bytes, e, []⟩ : AbsSrc) st) with
  | none => none
  | some s => finishRun post (((transferOps wpre wpost s).run (Core.new wst)).run.run (BufSink.new M sink))

theorem runTransfer_abs {N : Nat} (hN : 0 < N) (st : Settings) (sched : List ReadEvent) (pre post : List Op) (M : Nat) (wst : WSettings) (sink : Sink) (wpre wpost : List WOp) :
    runTransfer N st sched pre post M wst sink wpre wpost = runTransferAbs st (BufSrc.schedBytes sched) (BufSrc.schedError sched) pre post M wst sink wpre wpost := by
  have h0 : (BufSrc.sim hN st).RRel (.idle false) (new (BufSrc.new N sched) st) (new (⟨BufSrc.schedBytes sched, BufSrc.schedError sched, []⟩ : AbsSrc) st) :=
    Sim.RRel.mk (S := BufSrc.sim hN st) (BufSrc.BRel.new sched) ..
  unfold runTransfer runTransferAbs
  rcases stateAfter_rel (fun e => BufSrc.SX.no) pre h0 with ⟨h1, h2⟩ | ⟨t1, t2, h1, h2, h3⟩
  · rw [h1, h2]
  · rw [h1, h2]
    dsimp only
    rcases (transferOps_rel (fun e => BufSrc.SX.no) wpre wpost h3 (Core.new wst)).run (BufSink.new M sink) with ⟨⟨x, c1⟩, ⟨y, c2⟩, k, r1, r2, a, b, e1, e2, e3, e4, e5, e6⟩ | ⟨e, k, r1, r2⟩
    · rw [r1, r2]
      dsimp only at e1 e2
      subst e1 e2
      unfold finishRun
      dsimp only
      rw [e3, e4, e5]
      by_cases hs : stopsReader b.transfer = true
      · rw [if_pos hs, if_pos hs]
      · rw [if_neg hs, if_neg hs, (Sim.runOps_same (S := BufSrc.sim hN st) post (e6.resolve_right (e4 ▸ hs))).eq (fun e => BufSrc.SX.no)]
    · rw [r1, r2]
      rfl

/-! ## IO errors of the writer -/

section
variable {σ : Type} [ByteSource σ] {α β : Type}

/-- After a failed call of `write_bytes` or `flush` there are no further calls, and an error is returned -/
def Calm (m : X σ α) : Prop := ∀ x, (m.run x).Quiet (fun _ => True) fun r => ∃ e, r.1 = .error (.writer e) ∧ e.isIo = true

theorem Calm.bind {m : X σ α} {f : α → X σ β} (h : Calm m) (hf : ∀ a, Calm (f a)) : Calm (m >>= f) := by
  intro x
  rw [T.run_bind]
  refine (h x).bind ?_ ?_
  · rintro ⟨_ | a, x'⟩ -
    · trivial
    · exact hf a x'
  · rintro ⟨_ | a, x'⟩ ⟨e, h1, h2⟩
    · cases h1; exact ⟨_, rfl, h2⟩
    · cases h1

theorem calm_pure {a : α} : Calm (pure a : X σ α) := fun _ => trivial
theorem calm_get : Calm (T.get : X σ (RState σ × Core)) := fun _ => trivial

theorem calm_onReader {m : R σ α} : Calm (onReader m) := by
  rintro ⟨s, c⟩
  unfold onReader
  dsimp only
  split <;> trivial

theorem calm_onWriter {m : W α} (h : ∀ c, (m.run c).Quiet (fun _ => True) fun r => ∃ e, r.1 = .error e ∧ e.isIo = true) : Calm (onWriter m : X σ α) := by
  rintro ⟨s, c⟩
  unfold onWriter
  dsimp only
  refine (h c).bind ?_ ?_
  · rintro ⟨_ | a, c'⟩ - <;> trivial
  · rintro ⟨_ | a, c'⟩ ⟨e, h1, h2⟩
    · cases h1; exact ⟨_, rfl, h2⟩
    · cases h1

theorem calm_w {m : W α} (h : Writer.Calm m) : Calm (onWriter m : X σ α) :=
  calm_onWriter fun c => (h c).mono (fun _ _ => trivial) fun _ h => h.1
theorem calm_wE {m : W α} (h : Writer.CalmE m) : Calm (onWriter m : X σ α) :=
  calm_onWriter fun c => (h c).mono (fun _ _ => trivial) fun _ h => h.1
theorem calm_wSv {m : W α} (h : Writer.CalmSv m) : Calm (onWriter m : X σ α) :=
  calm_onWriter fun c => (h c).mono (fun _ _ => trivial) fun _ h => h.1

theorem calm_svWriteStr {t : Text} : Calm (onWriter (svWriteStr t) : X σ Unit) := by
  refine calm_onWriter fun c => ?_
  have h := calm_svOp (o := .writeStr t) c
  have e : svOp (.writeStr t) = (svWriteStr t >>= fun _ => pure 0) := rfl
  rw [e, T.run_bind] at h
  have silent : ∀ {t : Tree (Except WErr Unit × Core)} {f : Except WErr Unit × Core → Tree (Except WErr Nat × Core)} {E : Except WErr Nat × Core → Prop}, (t.bind f).Silent E →
      (∀ s, f (.ok (), s) = .ret (.ok 0, s)) → (∀ e s, f (.error e, s) = .ret (.error e, s)) →
      (∀ r, E r → ∃ e, r.1 = .error e ∧ e.isIo = true) → t.Silent fun r => ∃ e, r.1 = .error e ∧ e.isIo = true := by
    intro t f E h h1 h2 hE
    match t, h with
    | .ret (.ok _, s'), h =>
      have h : (f (.ok (), s')).Silent E := h
      rw [h1] at h
      obtain ⟨e, h1, _⟩ := hE _ h
      cases h1
    | .ret (.error e, s'), h =>
      have h : (f (.error e, s')).Silent E := h
      rw [h2] at h
      obtain ⟨e', h1, h2⟩ := hE _ h
      cases h1
      exact ⟨_, rfl, h2⟩
    | .panic _, _ => trivial
  have key : ∀ {t : Tree (Except WErr Unit × Core)} {f : Except WErr Unit × Core → Tree (Except WErr Nat × Core)} {P E : Except WErr Nat × Core → Prop}, (t.bind f).Quiet P E →
      (∀ s, f (.ok (), s) = .ret (.ok 0, s)) → (∀ e s, f (.error e, s) = .ret (.error e, s)) →
      (∀ r, E r → ∃ e, r.1 = .error e ∧ e.isIo = true) → t.Quiet (fun _ => True) fun r => ∃ e, r.1 = .error e ∧ e.isIo = true := by
    intro t f P E h h1 h2 hE
    induction t with
    | ret => trivial
    | panic => trivial
    | emit bs k ih => exact ⟨ih _ h.1, fun e he => silent (h.2 e he) h1 h2 hE⟩
    | flush k ih => exact ⟨ih _ h.1, fun e he => silent (h.2 e he) h1 h2 hE⟩
  exact key h (fun _ => rfl) (fun _ _ => rfl) fun r h => h.1

theorem calm_stringLoop (n : Nat) : Calm (transferStringLoop n : X σ Unit) := by
  induction n with
  | zero => exact calm_onReader
  | succ n ih =>
    unfold transferStringLoop
    refine calm_onReader.bind fun a => calm_svWriteStr.bind fun _ => ?_
    split
    · exact calm_pure
    · exact ih

theorem calm_transferString : Calm (transferString : X σ Unit) := by
  unfold transferString
  exact calm_onReader.bind fun _ => (calm_wE calm_stringValueWriter).bind fun _ => calm_get.bind fun a => (calm_stringLoop _).bind fun _ => (calm_wE calm_svFinishValue).bind fun _ => calm_onReader

theorem calm_transferStart : Calm (transferStart : X σ Nat) := by
  unfold transferStart
  refine calm_onReader.bind fun a => ?_
  cases a with
  | array => exact calm_onReader.bind fun _ => (calm_w calm_beginArray).bind fun _ => calm_pure
  | object => exact calm_onReader.bind fun _ => (calm_w calm_beginObject).bind fun _ => calm_pure
  | string => exact calm_transferString.bind fun _ => calm_pure
  | number => exact calm_onReader.bind fun _ => (calm_w calm_numberValue).bind fun _ => calm_pure
  | boolean => exact calm_onReader.bind fun _ => (calm_w calm_boolValue).bind fun _ => calm_pure
  | null => exact calm_onReader.bind fun _ => (calm_w calm_nullValue).bind fun _ => calm_pure

theorem calm_transferLoop (n d : Nat) : Calm (transferLoop n d : X σ Unit) := by
  induction n generalizing d with
  | zero => exact calm_onReader
  | succ n ih =>
    unfold transferLoop
    have cont : ∀ d, Calm (if d == 0 then pure () else transferLoop n d : X σ Unit) := by
      intro d
      split
      · exact calm_pure
      · exact ih d
    refine calm_onReader.bind fun a => ?_
    refine Calm.bind ?_ fun d => cont d
    split
    · unfold transferEnd
      refine Calm.bind ((calm_get (σ := σ)).bind fun x => ?_) fun _ => calm_pure
      dsimp only
      split
      · exact calm_onReader.bind fun _ => calm_w calm_endArray
      · exact calm_onReader.bind fun _ => calm_w calm_endObject
    · unfold transferName
      refine Calm.bind ((calm_get (σ := σ)).bind fun x => ?_) fun _ => calm_transferStart.bind fun _ => calm_pure
      dsimp only
      split
      · exact calm_onReader.bind fun _ => calm_w calm_name
      · exact calm_pure

theorem calm_transferTo : Calm (transferTo : X σ Unit) := by
  unfold transferTo
  refine (calm_get (σ := σ)).bind fun x => ?_
  dsimp only
  split
  · exact calm_onReader
  · exact calm_transferLoop _ _

theorem bad_failed {r : Except WErr WOut} (h : Bad r) : callFailed r = true := by
  rcases h with ⟨e, rfl, h⟩ | ⟨xs, f, rfl, h | ⟨e, rfl⟩⟩
  · exact h
  · obtain ⟨e, he⟩ := h
    unfold callFailed
    rw [Bool.or_eq_true]
    exact .inl (List.any_eq_true.2 ⟨_, he, rfl⟩)
  · unfold callFailed
    rw [Bool.or_eq_true]
    exact .inr rfl

/-- A failure of the underlying `Write` is visible in the results -/
def Shown (t : TOut σ) : Prop := (Reported t.pre ∧ t.transfer = none) ∨ (∃ e, t.transfer = some (.error (.writer e)) ∧ e.isIo = true) ∨ Reported t.post

theorem quiet_transferOps (wpre wpost : List WOp) (s : RState σ) (c : Core) :
    ((transferOps wpre wpost s).run c).QuietB (HasString wpre ∨ HasString wpost) (fun _ => True) fun r => ∃ t, r.1 = .ok t ∧ Shown t := by
  unfold transferOps
  rw [T.run_bind]
  refine ((quiet_wops wpre c).imp .inl).bind ?_ ?_
  · rintro ⟨e | pre, c'⟩ -
    · nomatch e
    · dsimp only
      split
      · trivial
      · rw [T.run_bind]
        refine Tree.QuietB.bind (P := fun _ => True) (E := fun r => ∃ e s, r.1 = .ok (.error (.writer e), s) ∧ e.isIo = true) ?_ ?_ ?_
        · unfold transferCall
          refine ((calm_transferTo (s, c')).imp False.elim).bind ?_ ?_
          · rintro ⟨r, s', c''⟩ -
            trivial
          · rintro ⟨r, s', c''⟩ ⟨e, h1, h2⟩
            dsimp only at h1
            subst h1
            exact ⟨_, _, rfl, h2⟩
        · rintro ⟨e | ⟨r, s'⟩, c''⟩ -
          · nomatch e
          · dsimp only
            cases r with
            | error => trivial
            | ok =>
              dsimp only
              rw [T.run_bind]
              refine ((quiet_wops wpost c'').imp .inr).bind ?_ ?_
              · rintro ⟨e | post, c'⟩ -
                · nomatch e
                · trivial
              · rintro ⟨e | post, c'⟩ ⟨rs, h1, h2⟩
                · nomatch e
                · cases h1
                  exact ⟨_, rfl, .inr (.inr h2)⟩
        · rintro ⟨e | ⟨r, s'⟩, c''⟩ ⟨e', s2, h1, h2⟩
          · nomatch e
          · cases h1
            exact ⟨_, rfl, .inr (.inl ⟨_, rfl, h2⟩)⟩
  · rintro ⟨e | pre, c'⟩ ⟨rs, h1, h2⟩
    · nomatch e
    · cases h1
      dsimp only
      have h2' := h2
      obtain ⟨a, r, b, rfl, hb, _⟩ := h2
      rw [if_pos (List.any_eq_true.2 ⟨r, by simp, bad_failed hb⟩)]
      exact ⟨_, rfl, .inl ⟨h2', rfl⟩⟩

end

/-! ## If the underlying `Write` does not fail -/

section
variable {wst : WSettings} {st : Settings}

theorem step_str {w w' : Written} {op : WOp} (h : WSpec.Step wst w op w') (hw : w'.str = none) : w.str = none := by
  cases h with
  | value hc hd => exact hc.1
  | rejected => exact hw
  | unfinished hc => exact hc.1
  | beginArray hc => exact hc.1
  | beginObject hc => exact hc.1
  | endArray => rfl
  | endObject => rfl
  | name => rfl
  | finish => rfl

theorem steps_str {w w' : Written} {ops : List WOp} (h : Steps wst w ops w') (hw : w'.str = none) : w.str = none := by
  induction h with
  | nil => exact hw
  | cons h1 _ ih => exact step_str h1 (ih hw)

/-- allowed calls do not fail, except for rejected numbers -/
theorem clean_wops (ops : List WOp) : ∀ {c c' : Core} {w w' : Written} {bs : Bytes} {rs : List (Except WErr WOut)}, WInv wst c w → WOk wst w → (∀ op ∈ ops, OpOk op) → .finishDocument ∉ ops →
    Steps wst w ops w' → w'.str = none → Emits (wops ops) c bs rs c' → ResOks ops rs → rs.any callFailed = false := by
  induction ops with
  | nil =>
    intro c c' w w' bs rs _ _ _ _ _ _ _ h
    match rs, h with
    | [], _ => rfl
  | cons o os ih =>
    intro c c' w w' bs rs hi hok hop hfin hst hs he hr
    match rs, hr with
    | r :: rs, hr =>
      have hop' := fun op h => hop op (List.mem_cons_of_mem _ h)
      have hfin' := fun h => hfin (List.mem_cons_of_mem _ h)
      have hof : o ≠ .finishDocument := fun h => hfin (h ▸ List.mem_cons_self ..)
      rw [List.any_cons, Bool.or_eq_false_iff]
      cases hst with
      | @cons _ w1 _ _ _ s1 s2 =>
      cases wop_outcome hi hok o (hop o (List.mem_cons_self ..)) with
      | panic u h1 h2 => exact absurd ⟨_, s1⟩ h2
      | rejected h1 h2 =>
        unfold Errs at h2
        unfold Emits at he
        rw [wops, ideal_bind, h2] at he
        dsimp only at he
        rw [if_pos rfl, ideal_bind] at he
        have hw : w = w1 := like_eq (step_unique (.rejected h1) s1) (step_str s1 (steps_str s2 hs))
        subst hw
        rcases hi2 : ((wops os).run c).ideal with ⟨p | ⟨y | y, c2⟩, b2⟩
        · rw [hi2] at he; cases he
        · exact nomatch y
        · rw [hi2] at he
          injection he with he h2'
          injection he with he
          injection he with he h3
          injection he with he
          injection he with he1 he2
          subst he1 he2
          exact ⟨rfl, ih hi hok hop' hfin' s2 hs hi2 hr.2⟩
      | done w2 out bs1 c1 h1 h2 h3 h4 h5 h6 =>
        have hs1 := steps_str s2 hs
        have hw := like_eq (step_unique s1 h1) hs1
        subst hw
        have hok2 := hok.step s1
        have h7 := h2
        unfold Emits at h2 he
        rw [wops, ideal_bind, h2] at he
        dsimp only at he
        rw [if_neg hof, ideal_bind] at he
        rcases hi2 : ((wops os).run c1).ideal with ⟨p | ⟨y | y, c2⟩, b2⟩
        · rw [hi2] at he; cases he
        · exact nomatch y
        · rw [hi2] at he
          injection he with he h2'
          injection he with he
          injection he with he h3'
          injection he with he
          injection he with he1 he2
          subst he1 he2
          refine ⟨?_, ih h4 hok2 hop' hfin' s2 hs hi2 hr.2⟩
          rcases h6 with rfl | ⟨ops, fin, rfl⟩
          · rfl
          · have key : ∃ t, fin = true ∧ w.CanAdd wst ∧ WSpec.SvWrites ops t := by
              cases s1 with
              | value hc hd => cases hd with | stringWriter _ t h => exact ⟨t, rfl, hc, h⟩
              | rejected h => cases h
              | unfinished hc h => cases hs1
            obtain ⟨t, rfl, hc, ht⟩ := key
            rcases string_outcome hi hc ops with ⟨t', c', _, e1, _⟩ | ⟨_, _, _, _, hno, _⟩
            · obtain ⟨_, rfl, _⟩ := h7.unique e1
              unfold callFailed
              rw [Bool.or_eq_false_iff]
              refine ⟨?_, rfl⟩
              rw [List.any_eq_false]
              intro x hx
              obtain ⟨o, _, rfl⟩ := List.mem_map.1 hx
              nofun
            · exact absurd ⟨t, ht⟩ hno

end

end Verif.Transfer

namespace Verif.Transfer
open Reader Writer Json Abs
open WSpec (Written Steps JOk JOks JOkm)

theorem stateAfter_of {s s' : St} (ops : List Op) (hct : .consumeTrailingWhitespace ∉ ops) (h : (Prog.after ops (.ret ())).toR.run s = .ok () s') : stateAfter ops s = some s' := by
  induction ops generalizing s with
  | nil => cases h; rfl
  | cons op ops ih =>
    have hop : op ≠ .consumeTrailingWhitespace := fun h => hct (h ▸ List.mem_cons_self ..)
    have hct' := fun h => hct (List.mem_cons_of_mem _ h)
    rw [Prog.after, Prog.toR_call] at h
    rw [stateAfter]
    cases hr : (runOp op).run s with
    | ok o s1 =>
      rw [hr] at h
      dsimp only at h ⊢
      rw [if_neg hop]
      exact ih hct' h
    | err e s1 =>
      rw [hr] at h
      dsimp only at h ⊢
      by_cases hf : e.fatal = true
      · rw [if_pos hf] at h; cases h
      · rw [if_neg hf] at h
        rw [if_neg (by simp [hf, hop])]
        exact ih hct' h

theorem reach_no_trailing {st : Settings} (ops : List Op) : ∀ {k k' : Cursor.Cur}, Cursor.reach st ops k = some k' → Op.consumeTrailingWhitespace ∉ ops := by
  induction ops with
  | nil => exact fun _ => nofun
  | cons op ops ih =>
    intro k k' h
    unfold Cursor.reach at h
    rw [List.mem_cons, not_or]
    constructor
    · rintro rfl
      unfold Cursor.step at h
      dsimp only at h
      split at h
      · rename_i hx; split at hx <;> cases hx; cases h
      · rename_i hx; split at hx <;> cases hx
      · cases h
      · cases h
    · split at h
      · split at h
        · cases h
        · exact ih h
      · exact ih h
      · cases h
      · cases h

mutual
theorem jok_value {cfg : Cfg} : (v : Cst) → v.Ok cfg → JOk v.value
  | .null, _ => trivial
  | .bool _, _ => trivial
  | .num bs, h => by
    have h : IsNumber bs := h
    show IsNumber (enc (asciiText bs))
    rw [asciiText_enc (isNumber_plain h)]
    exact h
  | .str _, _ => trivial
  | .arr is, h => joks_values true is h
  | .obj ms, h => jokm_values true ms h
theorem joks_values {cfg : Cfg} (first : Bool) : (is : Items) → is.Ok cfg first → JOks is.values
  | .nil _, _ => trivial
  | .cons _ v rest, h => ⟨jok_value v h.2.1, joks_values false rest h.2.2⟩
theorem jokm_values {cfg : Cfg} (first : Bool) : (ms : Members) → ms.Ok cfg first → JOkm ms.values
  | .nil _, _ => trivial
  | .cons _ _ _ _ v rest, h => ⟨jok_value v h.2.2.2.2.1, jokm_values false rest h.2.2.2.2.2⟩
end

variable {st : Settings} {wst : WSettings} {c : Ctx} {s : St} {l : Lead} {v : Cst} {pos : Pos} {r : Bytes} {T : Tops} {k : Cursor.Cur} {wc : Core} {w : Written}

theorem Front.transferTo (h : Front st c s l v pos r) (hf : Fits st c v.depth) (hnum : v.Nums fun bs => ¬ Restricted st bs) (hw : WInv wst wc w) (hok : WOk wst w) (hc : w.CanAdd wst) :
    ∃ bs wc', WInv wst wc' (w.add v.value) ∧ (w.add v.value).bytes wst = w.bytes wst ++ bs ∧ Emits transferTo (s, wc) bs () (behind st c l v pos r, wc') := by
  have h1 := (costV_le v h.ok).1
  have h2 := h.rest_le
  obtain ⟨k, hk⟩ : ∃ k, fuel s = k + costV v + 1 := by
    refine ⟨s.src.rest.length + 1 - costV v, ?_⟩
    show s.src.rest.length + 2 = _
    simp only [List.length_append] at h2
    omega
  obtain ⟨bs, wc', g1, g2, g3, g4⟩ := rest_value v (n := k) (d := 0) h.slot h.ok hf h.bare hnum hw hok hc
  refine ⟨bs, wc', g1, g3, ?_⟩
  unfold Transfer.transferTo
  refine (emits_get (s := (s, wc))).seq ?_
  dsimp only
  rw [h.emn, if_neg (by exact Bool.false_ne_true), hk]
  refine loop_top h.emn (rest_peek h.peek h.emn ?_)
  exact (g4 [] (behind st c l v pos r, wc') emits_pure).cast (List.append_nil _)

theorem RepC.transferTo {u : JVal} (h : RepC st T k s) (hk : k.canValue st.allowMultipleTopLevel = true) (hn : k.next = some u)
    (hd : k.tooDeep st.maxNestingDepth (Cursor.depth u) = none) (hnum : st.restrictNumberValues = true → ∀ t ∈ Cursor.numbers u, Cursor.unsupportedNumber t = false)
    (hw : WInv wst wc w) (hok : WOk wst w) (hc : w.CanAdd wst) : ∃ s', Reader.skipValue.run s = .ok () s' ∧ JOk u ∧
      ∃ bs wc', WInv wst wc' (w.add u) ∧ (w.add u).bytes wst = w.bytes wst ++ bs ∧ Emits transferTo (s, wc) bs () (s', wc') := by
  rcases h with ⟨c, td, rfl, h⟩ | ⟨hs, _⟩
  · obtain ⟨l, v, td', hh, rfl⟩ := heads_of_next h.fit hn
    have hr := h.readable hh hd hnum
    exact ⟨_, (h.front hh).skipValue ((deep_fits (cur_length h.fit)).1 (depth_value v ▸ hd)), jok_value v (h.front hh).ok, Front.transferTo (h.front hh) hr.2 hr.1 hw hok hc⟩
  · simp [Cursor.Cur.canValue, hs] at hk

/-- The program, if the underlying `Write` does not fail -/
theorem transferOps_ideal {s s' : St} {wpre : List WOp} (wpost : List WOp) {r1 : List (Except WErr WOut)} {b1 b2 : Bytes} {c1 c2 : Core} (h1 : Emits (wops wpre) (Core.new wst) b1 r1 c1) (hr : r1.any callFailed = false)
    (h2 : Emits transferTo (s, c1) b2 () (s', c2)) : ((transferOps wpre wpost s).run (Core.new wst)).ideal = (match ((wops wpost).run c2).ideal with
      | (.ok (.ok r3, c3), b3) => (.ok (.ok ⟨r1, some (.ok ()), r3, s'⟩, c3), b1 ++ (b2 ++ b3))
      | (.ok (.error e, _), _) => nomatch e
      | (.error p, b3) => (.error p, b1 ++ (b2 ++ b3))) ∧
    ∀ b, (∀ b, ((wops wpost).run c2).flushed b = true) → ((transferOps wpre wpost s).run (Core.new wst)).flushed b = true := by
  unfold Emits at h1 h2
  have h3 : ((transferCall s).run c1).ideal = (.ok (.ok (.ok (), s'), c2), b2) := by
    unfold transferCall
    rw [ideal_bind, h2]
    simp [Tree.ideal]
  constructor
  · unfold transferOps
    rw [T.run_bind, ideal_bind, h1]
    dsimp only
    rw [hr, if_neg (by exact Bool.false_ne_true), T.run_bind, ideal_bind, h3]
    dsimp only
    rw [T.run_bind, ideal_bind]
    rcases ((wops wpost).run c2).ideal with ⟨p | ⟨e | r3, c3⟩, b3⟩
    · rfl
    · nomatch e
    · show (_, b1 ++ (b2 ++ (b3 ++ []))) = _
      rw [List.append_nil]
      rfl
  · intro b hb
    unfold transferOps
    rw [T.run_bind, flushed_bind, h1]
    dsimp only
    rw [hr, if_neg (by exact Bool.false_ne_true), T.run_bind, flushed_bind, h3]
    dsimp only
    rw [T.run_bind, flushed_bind]
    split
    · rename_i x hx
      rcases x with ⟨e | r3, c3⟩
      · nomatch e
      · exact hb _
    · exact hb _

end Verif.Transfer
